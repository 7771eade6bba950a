import Verif.InputShapes.Model
import Mathlib.Tactic
/-!
# The shapes of inputs that are made at run time: lemmas (C129)
-/
namespace Verif.InputShapes

theorem setFrom_get (dims : List Int) : ∀ (c k : Nat) (ov : List (List Int)) (i : Nat),
    (setFrom dims k c ov).length = ov.length ∧
    (setFrom dims k c ov)[i]? = if k ≤ i ∧ i < k + c ∧ i < ov.length then some dims else ov[i]? := by
  intro c
  induction c with
  | zero => intro k ov i; refine ⟨rfl, ?_⟩; rw [if_neg (by omega)]; rfl
  | succ c ih =>
    intro k ov i
    obtain ⟨hl, hg⟩ := ih (k + 1) (ov.set k dims) i
    refine ⟨by rw [setFrom, hl, List.length_set], ?_⟩
    rw [setFrom, hg, List.length_set, List.getElem?_set]
    by_cases hk : k = i
    · subst hk
      by_cases hlt : k < ov.length
      · simp [hlt]
      · simp [hlt]
    · rw [if_neg hk]
      by_cases h : k ≤ i ∧ i < k + (c + 1) ∧ i < ov.length
      · rw [if_pos h, if_pos (by omega)]
      · rw [if_neg h, if_neg (by omega)]

theorem step_valid (n : Nat) (e : Entry) (ov : List (List Int)) (hn : ov.length = n) (h : e.Valid n) :
    ∃ ov', shapeStep n e ov = some ov' ∧ ov'.length = n ∧
      ∀ i, i < n → ov'[i]? = if e.Covers i then some e.dims else ov[i]? := by
  have hd : e.dims.any (fun d => decide (d < -1)) = false := by
    rw [List.any_eq_false]
    intro d hd
    have := h.2 d hd
    simp only [decide_eq_true_eq]; omega
  obtain ⟨low, high, dims⟩ := e
  simp only at hd
  rcases h.1 with h1 | ⟨h0, h1, h2⟩
  · simp only at h1
    subst h1
    refine ⟨setFrom dims 0 n ov, ?_, by rw [(setFrom_get dims n 0 ov 0).1, hn], ?_⟩
    · simp [shapeStep, parseEntry, hd, store]
    · intro i hi
      rw [(setFrom_get dims n 0 ov i).2, if_pos (by omega)]
      exact (if_pos (show Entry.Covers _ i from Or.inl rfl)).symm
  · simp only at h0 h1 h2
    have hp : parseEntry n ⟨low, high, dims⟩ = some (low, high.getD low) := by
      unfold parseEntry
      rw [if_neg (by simp only; omega), if_pos h0]
      cases high with
      | none => rfl
      | some u =>
        have := h2 u rfl
        simp only
        rw [if_neg (by omega)]
        rfl
    refine ⟨setFrom dims low.toNat (high.getD low - low + 1).toNat ov, ?_,
      by rw [(setFrom_get dims _ _ ov 0).1, hn], ?_⟩
    · simp only [shapeStep, hp, hd, Bool.false_eq_true, if_false, store]
      rw [if_neg (by omega)]
    · intro i hi
      rw [(setFrom_get dims _ _ ov i).2]
      by_cases hc : low ≤ (i : Int) ∧ (i : Int) ≤ high.getD low
      · rw [if_pos (by omega)]
        exact (if_pos (show Entry.Covers _ i from Or.inr hc)).symm
      · rw [if_neg (by omega)]
        refine (if_neg (show ¬ Entry.Covers _ i from ?_)).symm
        rintro (h' | h')
        · simp only at h'; omega
        · exact hc h'

theorem step_invalid (n : Nat) (e : Entry) (ov : List (List Int)) (h : ¬ e.Valid n) :
    shapeStep n e ov = none := by
  obtain ⟨low, high, dims⟩ := e
  unfold shapeStep
  by_cases hd : ∀ d ∈ dims, -1 ≤ d
  · have hp : parseEntry n ⟨low, high, dims⟩ = none := by
      unfold parseEntry
      simp only
      by_cases h1 : low ≠ -1 ∧ (low < 0 ∨ low ≥ n)
      · rw [if_pos h1]
      · rw [if_neg h1]
        have hl : low ≠ -1 := fun h' => h ⟨Or.inl h', hd⟩
        rw [if_pos (by omega)]
        cases high with
        | none => exact absurd ⟨Or.inr ⟨by simp only; omega, by simp only; omega,
            by simp⟩, hd⟩ h
        | some u =>
          simp only
          by_cases hu : u < low ∨ u ≥ n
          · rw [if_pos hu]
          · refine absurd ⟨Or.inr ⟨by simp only; omega, by simp only; omega, ?_⟩, hd⟩ h
            intro u' hu'
            simp only [Option.some.injEq] at hu'
            subst hu'
            simp only
            omega
    rw [hp]
  · have : dims.any (fun d => decide (d < -1)) = true := by
      push Not at hd
      obtain ⟨d, hm, hlt⟩ := hd
      exact List.any_eq_true.2 ⟨d, hm, by simpa using hlt⟩
    cases parseEntry n ⟨low, high, dims⟩ with
    | none => rfl
    | some p => simp only [this, if_true]

theorem asked_snoc (es : List Entry) (e : Entry) (i : Nat) :
    asked (es ++ [e]) i = if e.Covers i then e.dims else asked es i := by
  unfold asked
  rw [List.filter_append]
  by_cases h : e.Covers i
  · simp [h]
  · simp [h]

theorem loop_valid (n : Nat) : ∀ (es pre : List Entry) (ov : List (List Int)),
    ov.length = n → (∀ i, i < n → ov[i]? = some (asked pre i)) → (∀ e ∈ es, e.Valid n) →
    ∃ ov', shapeLoop n es ov = some ov' ∧ ov'.length = n ∧
      ∀ i, i < n → ov'[i]? = some (asked (pre ++ es) i) := by
  intro es
  induction es with
  | nil => intro pre ov hl hg _; exact ⟨ov, rfl, hl, by simpa using hg⟩
  | cons e es ih =>
    intro pre ov hl hg hv
    obtain ⟨ov1, h1, hl1, hg1⟩ := step_valid n e ov hl (hv e (by simp))
    obtain ⟨ov2, h2, hl2, hg2⟩ := ih (pre ++ [e]) ov1 hl1 (by
      intro i hi
      rw [hg1 i hi, asked_snoc, hg i hi]
      split <;> rfl) (fun x hx => hv x (by simp [hx]))
    refine ⟨ov2, by rw [shapeLoop, h1]; exact h2, hl2, ?_⟩
    intro i hi
    rw [hg2 i hi, List.append_assoc]; rfl

theorem loop_invalid (n : Nat) : ∀ (es : List Entry) (ov : List (List Int)),
    (∃ e ∈ es, ¬ e.Valid n) → shapeLoop n es ov = none := by
  intro es
  induction es with
  | nil => rintro ov ⟨e, he, -⟩; simp at he
  | cons e es ih =>
    rintro ov ⟨x, hx, hv⟩
    rw [shapeLoop]
    rcases List.mem_cons.1 hx with rfl | hx
    · rw [step_invalid n x ov hv]
    · cases shapeStep n e ov with
      | none => rfl
      | some ov' => exact ih ov' ⟨x, hx, hv⟩

/-- What becomes of a dimension in the end. -/
def finalDim (s : Int) : Option Int → Option Int
  | none => if s < 0 then none else some s
  | some o =>
    match mergeDim s o with
    | none => none
    | some v => if v < 0 then none else some v

theorem finalDim_iff (s : Int) (a : Option Int) (v : Int) :
    finalDim s a = some v ↔ DimFits s a v ∧ ∀ w, DimFits s a w → w = v := by
  constructor
  · intro h
    cases a with
    | none =>
      simp only [finalDim] at h
      split at h
      · cases h
      · cases h
        exact ⟨⟨by omega, fun _ => rfl, by simp⟩, fun w hw => hw.2.1 (by omega)⟩
    | some o =>
      simp only [finalDim, mergeDim] at h
      by_cases h1 : s ≥ 0 ∧ o ≥ 0
      · rw [if_pos h1] at h
        by_cases h2 : s ≠ o
        · rw [if_pos h2] at h; cases h
        · rw [if_neg h2] at h
          simp only at h
          rw [if_neg (by omega)] at h
          cases h
          refine ⟨⟨by omega, fun _ => rfl, ?_⟩, fun w hw => hw.2.1 (by omega)⟩
          intro x hx _
          cases hx
          omega
      · rw [if_neg h1] at h
        by_cases h2 : s < 0 ∧ o ≥ 0
        · rw [if_pos h2] at h
          simp only at h
          rw [if_neg (by omega)] at h
          cases h
          refine ⟨⟨by omega, fun _ => by omega, ?_⟩, fun w hw => hw.2.2 _ rfl (by omega)⟩
          intro x hx _
          cases hx
          rfl
        · rw [if_neg h2] at h
          by_cases h3 : s ≥ 0
          · rw [if_pos h3] at h
            simp only at h
            rw [if_neg (by omega)] at h
            cases h
            refine ⟨⟨by omega, fun _ => rfl, ?_⟩, fun w hw => hw.2.1 (by omega)⟩
            intro x hx _
            cases hx
            omega
          · rw [if_neg h3] at h; cases h
  · rintro ⟨⟨h0, h1, h2⟩, hu⟩
    by_cases hs : 0 ≤ s
    · have hv := h1 hs
      subst hv
      cases a with
      | none => simp only [finalDim]; rw [if_neg (by omega)]
      | some o =>
        simp only [finalDim, mergeDim]
        by_cases ho : 0 ≤ o
        · have := h2 o rfl ho
          subst this
          rw [if_pos ⟨hs, hs⟩, if_neg (by simp)]
          simp only
          rw [if_neg (by omega)]
        · rw [if_neg (by omega), if_neg (by omega), if_pos hs]
          simp only
          rw [if_neg (by omega)]
    · have key : ∃ o, a = some o ∧ 0 ≤ o := by
        by_contra hc
        push Not at hc
        have := hu (v + 1) ⟨by omega, fun h => absurd h hs,
          fun x hx hx0 => absurd (hc x hx) (by omega)⟩
        omega
      obtain ⟨o, rfl, ho⟩ := key
      have := h2 o rfl ho
      subst this
      simp only [finalDim, mergeDim]
      rw [if_neg (by omega), if_pos (by omega)]
      simp only
      rw [if_neg (by omega)]

/-- What becomes of a shape in the end. -/
def finalShape (s a : List Int) : Option (List Int) :=
  match mergeDims s a with
  | none => none
  | some t => if t.any (fun d => decide (d < 0)) then none else some t

theorem finalShape_cons (x : Int) (s a : List Int) :
    finalShape (x :: s) a =
      match finalDim x a.head? with
      | none => none
      | some v =>
        match finalShape s a.tail with
        | none => none
        | some vs => some (v :: vs) := by
  have hm : ∀ s : List Int, mergeDims s [] = some s := by intro s; cases s <;> rfl
  cases a with
  | nil =>
    simp only [finalShape, hm, List.tail_nil, List.head?_nil, finalDim, List.any_cons]
    by_cases hx : x < 0
    · simp [hx]
    · simp only [hx, decide_false, Bool.false_or, if_false]
      by_cases ht : s.any (fun d => decide (d < 0)) = true
      · simp only [ht, if_true]
      · simp only [ht, Bool.false_eq_true, if_false]
  | cons o os =>
    simp only [finalShape, mergeDims, List.tail_cons, List.head?_cons, finalDim]
    cases h1 : mergeDim x o with
    | none => rfl
    | some v =>
      simp only
      cases h2 : mergeDims s os with
      | none => simp only; split <;> rfl
      | some vs =>
        simp only [List.any_cons]
        by_cases hx : v < 0
        · simp [hx]
        · simp only [hx, decide_false, Bool.false_or, if_false]
          by_cases ht : vs.any (fun d => decide (d < 0)) = true
          · simp only [ht, if_true]
          · simp only [ht, Bool.false_eq_true, if_false]

/-- A list whose elements have properties by position. -/
def AllAt {α β : Type} (P : Nat → α → β → Prop) (s : List α) (t : List β) : Prop :=
  t.length = s.length ∧ ∀ (k : Nat) x v, s[k]? = some x → t[k]? = some v → P k x v

theorem allAt_cons {α β : Type} (P : Nat → α → β → Prop) (x : α) (s : List α) (v : β) (t : List β) :
    AllAt P (x :: s) (v :: t) ↔ P 0 x v ∧ AllAt (fun k => P (k + 1)) s t := by
  constructor
  · rintro ⟨hl, h⟩
    exact ⟨h 0 x v rfl rfl, by simpa using hl, fun k y w hy hw => h (k + 1) y w (by simpa using hy)
      (by simpa using hw)⟩
  · rintro ⟨h0, hl, h⟩
    refine ⟨by simpa using hl, fun k y w hy hw => ?_⟩
    cases k with
    | zero => simp at hy hw; subst hy; subst hw; exact h0
    | succ k => exact h k y w (by simpa using hy) (by simpa using hw)

theorem allAt_unique {α β : Type} (P Q : Nat → α → β → Prop)
    (h : ∀ k x v, Q k x v ↔ P k x v ∧ ∀ w, P k x w → w = v) (s : List α) (t : List β) :
    AllAt Q s t ↔ AllAt P s t ∧ ∀ t', AllAt P s t' → t' = t := by
  constructor
  · intro hq
    refine ⟨⟨hq.1, fun k x v hx hv => ((h k x v).1 (hq.2 k x v hx hv)).1⟩, ?_⟩
    intro t' ht'
    apply List.ext_getElem? 
    intro k
    by_cases hk : k < s.length
    · have h1 : t'[k]? = some (t'[k]'(by rw [ht'.1]; exact hk)) := List.getElem?_eq_getElem _
      have h2 : t[k]? = some (t[k]'(by rw [hq.1]; exact hk)) := List.getElem?_eq_getElem _
      have h3 : s[k]? = some s[k] := List.getElem?_eq_getElem _
      have := ((h k _ _).1 (hq.2 k _ _ h3 h2)).2 _ (ht'.2 k _ _ h3 h1)
      rw [h1, h2, this]
    · rw [List.getElem?_eq_none (by rw [ht'.1]; omega), List.getElem?_eq_none (by rw [hq.1]; omega)]
  · rintro ⟨hp, hu⟩
    refine ⟨hp.1, fun k x v hx hv => (h k x v).2 ⟨hp.2 k x v hx hv, ?_⟩⟩
    intro w hw
    have hk : k < t.length := by
      by_contra hc
      rw [List.getElem?_eq_none (by omega)] at hv
      cases hv
    have := hu (t.set k w) ⟨by rw [List.length_set, hp.1], by
      intro j y u hy hu'
      rw [List.getElem?_set] at hu'
      by_cases hj : k = j
      · subst hj
        rw [if_pos rfl, if_pos hk] at hu'
        cases hu'
        rw [hx] at hy
        cases hy
        exact hw
      · rw [if_neg hj] at hu'
        exact hp.2 j y u hy hu'⟩
    have h2 : (t.set k w)[k]? = some w := by simp [hk]
    rw [this, hv] at h2
    exact (Option.some.inj h2).symm

theorem finalShape_at : ∀ (s a t : List Int),
    finalShape s a = some t ↔ AllAt (fun k x v => finalDim x a[k]? = some v) s t := by
  intro s
  induction s with
  | nil =>
    intro a t
    have : finalShape [] a = some [] := by simp [finalShape, mergeDims]
    rw [this]
    constructor
    · intro h; cases h; exact ⟨rfl, by simp⟩
    · intro h
      have := h.1
      simp at this
      rw [this]
  | cons x s ih =>
    intro a t
    rw [finalShape_cons]
    cases t with
    | nil =>
      constructor
      · intro h
        split at h
        · cases h
        · split at h <;> cases h
      · intro h; have := h.1; simp at this
    | cons v t =>
      rw [allAt_cons]
      have e1 : a[0]? = a.head? := by cases a <;> rfl
      have e2 : ∀ k, a[k + 1]? = a.tail[k]? := by intro k; cases a <;> simp
      simp only [e1, e2]
      rw [← ih a.tail t]
      cases finalDim x a.head? with
      | none => simp
      | some v' =>
        cases finalShape s a.tail with
        | none => simp
        | some t' => simp

theorem finalShape_iff (s a t : List Int) :
    finalShape s a = some t ↔ ShapeFits s a t ∧ ∀ t', ShapeFits s a t' → t' = t := by
  rw [finalShape_at]
  exact allAt_unique (fun k x v => DimFits x a[k]? v) _ (fun k x v => finalDim_iff x _ v) s t

/-- All inputs, in the end. -/
def finalAll (sig ov : List (List Int)) : Option (List (List Int)) :=
  match mergeAll sig ov with
  | none => none
  | some ts => if ts.any (fun t => t.any fun d => decide (d < 0)) then none else some ts

theorem finalAll_cons (s o : List Int) (ss os : List (List Int)) :
    finalAll (s :: ss) (o :: os) =
      match finalShape s o with
      | none => none
      | some v =>
        match finalAll ss os with
        | none => none
        | some vs => some (v :: vs) := by
  simp only [finalAll, mergeAll, finalShape]
  cases mergeDims s o with
  | none => rfl
  | some v =>
    simp only
    cases mergeAll ss os with
    | none => simp only; split <;> rfl
    | some vs =>
      simp only [List.any_cons]
      by_cases hv : v.any (fun d => decide (d < 0)) = true
      · simp only [hv, Bool.true_or, if_true]
      · simp only [hv, Bool.false_or, Bool.false_eq_true, if_false]
        by_cases ht : vs.any (fun t => t.any fun d => decide (d < 0)) = true
        · simp only [ht, if_true]
        · simp only [ht, Bool.false_eq_true, if_false]

theorem finalAll_at : ∀ (sig ov ts : List (List Int)) (f : Nat → List Int), ov.length = sig.length →
    (∀ i, i < sig.length → ov[i]? = some (f i)) →
    (finalAll sig ov = some ts ↔ AllAt (fun i s t => finalShape s (f i) = some t) sig ts) := by
  intro sig
  induction sig with
  | nil =>
    intro ov ts f hl hf
    have : finalAll [] ov = some [] := by simp [finalAll, mergeAll]
    rw [this]
    constructor
    · intro h; cases h; exact ⟨rfl, by simp⟩
    · intro h
      have := h.1
      simp at this
      rw [this]
  | cons s sig ih =>
    intro ov ts f hl hf
    cases ov with
    | nil => simp at hl
    | cons o ov =>
      have h0 : o = f 0 := by have := hf 0 (by simp); simpa using this
      rw [finalAll_cons]
      have ih' := fun t => ih ov t (fun i => f (i + 1)) (by simpa using hl) (by
        intro i hi
        have := hf (i + 1) (by simpa using hi)
        simpa using this)
      cases ts with
      | nil =>
        constructor
        · intro h
          split at h
          · cases h
          · split at h <;> cases h
        · intro h; have := h.1; simp at this
      | cons t ts =>
        rw [allAt_cons, ← ih' ts, h0]
        cases finalShape s (f 0) with
        | none => simp
        | some v' =>
          cases finalAll sig ov with
          | none => simp
          | some t' => simp

theorem create_eq (sig : List (List Int)) (es : List Entry) :
    create sig es =
      match parseShapeInfo sig.length es with
      | none => none
      | some ov => finalAll sig ov := by
  unfold create parseInputSpecs
  cases parseShapeInfo sig.length es with
  | none => rfl
  | some ov => rfl

end Verif.InputShapes
