import Verif.InputValues.Model
import Verif.InputShapes.Lemmas
import Mathlib.Tactic
/-!
# The values of inputs that are made at run time: lemmas (C134)
-/
namespace Verif.InputValues

variable {α : Type}

theorem last_cons {β : Type} (v : β) (l : List β) (o : Option β) :
    l.getLast?.or (some v) = (v :: l).getLast?.or o := by
  rw [List.getLast?_cons]
  cases l.getLast? <;> rfl

theorem words_ok : ∀ (ts : List (Tok α)) (s : VSpec α), (∀ k ∈ sozs ts, -1 ≤ k) →
    words ts s = some { min := (lows ts).getLast?.or s.min, max := (highs ts).getLast?.or s.max,
                        soz := (sozs ts).getLast?.or s.soz } := by
  intro ts
  induction ts with
  | nil => intro s _; simp [words, lows, highs, sozs]
  | cons t ts ih =>
    intro s h
    have h' : ∀ k ∈ sozs ts, -1 ≤ k := by
      intro k hk
      refine h k ?_
      cases t <;> simp [sozs] at hk ⊢ <;> first | exact hk | exact Or.inr hk
    cases t with
    | min v =>
      have e1 : lows (.min v :: ts) = v :: lows ts := rfl
      have e2 : highs (.min v :: ts) = highs ts := rfl
      have e3 : sozs (.min v :: ts) = sozs ts := rfl
      rw [words, word, e1, e2, e3]
      simp only
      rw [ih _ h', ← last_cons v (lows ts) s.min]
    | max v =>
      have e1 : lows (.max v :: ts) = lows ts := rfl
      have e2 : highs (.max v :: ts) = v :: highs ts := rfl
      have e3 : sozs (.max v :: ts) = sozs ts := rfl
      rw [words, word, e1, e2, e3]
      simp only
      rw [ih _ h', ← last_cons v (highs ts) s.max]
    | val v =>
      have e1 : lows (.val v :: ts) = v :: lows ts := rfl
      have e2 : highs (.val v :: ts) = v :: highs ts := rfl
      have e3 : sozs (.val v :: ts) = sozs ts := rfl
      rw [words, word, e1, e2, e3]
      simp only
      rw [ih _ h', ← last_cons v (highs ts) s.max, ← last_cons v (lows ts) s.min]
    | soz n =>
      have e1 : lows (.soz n :: ts) = lows ts := rfl
      have e2 : highs (.soz n :: ts) = highs ts := rfl
      have e3 : sozs (.soz n :: ts) = n :: sozs ts := rfl
      have hn : ¬ n < -1 := by have := h n (by rw [e3]; simp); omega
      rw [words, word, e1, e2, e3, if_neg hn]
      simp only
      rw [ih _ h', ← last_cons n (sozs ts) s.soz]

theorem words_bad : ∀ (ts : List (Tok α)) (s : VSpec α), (∃ k ∈ sozs ts, k < -1) →
    words ts s = none := by
  intro ts
  induction ts with
  | nil => rintro s ⟨k, hk, -⟩; simp [sozs] at hk
  | cons t ts ih =>
    rintro s ⟨k, hk, hlt⟩
    rw [words]
    cases t with
    | min v => exact ih _ ⟨k, hk, hlt⟩
    | max v => exact ih _ ⟨k, hk, hlt⟩
    | val v => exact ih _ ⟨k, hk, hlt⟩
    | soz n =>
      have e3 : sozs (.soz n :: ts) = n :: sozs ts := rfl
      rw [e3] at hk
      unfold word
      by_cases hn : n < -1
      · simp only [hn, if_true]
      · simp only [hn, if_false]
        rcases List.mem_cons.1 hk with rfl | hk
        · exact absurd hlt hn
        · exact ih _ ⟨k, hk, hlt⟩

theorem setFrom_get {β : Type} (v : β) : ∀ (c k : Nat) (l : List β) (i : Nat),
    (setFrom v k c l).length = l.length ∧
    (setFrom v k c l)[i]? = if k ≤ i ∧ i < k + c ∧ i < l.length then some v else l[i]? := by
  intro c
  induction c with
  | zero => intro k l i; refine ⟨rfl, ?_⟩; rw [if_neg (by omega)]; rfl
  | succ c ih =>
    intro k l i
    obtain ⟨hl, hg⟩ := ih (k + 1) (l.set k v) i
    refine ⟨by rw [setFrom, hl, List.length_set], ?_⟩
    rw [setFrom, hg, List.length_set, List.getElem?_set]
    by_cases hk : k = i
    · subst hk
      by_cases hlt : k < l.length
      · simp [hlt]
      · simp [hlt]
    · rw [if_neg hk]
      by_cases h : k ≤ i ∧ i < k + (c + 1) ∧ i < l.length
      · rw [if_pos h, if_pos (by omega)]
      · rw [if_neg h, if_neg (by omega)]

theorem parse_ok (n : Nat) (e : VEntry α) (h : e.Valid n) :
    ∃ p, InputShapes.parseEntry n ⟨e.low, e.high, []⟩ = some p ∧
      ∀ {β : Type} (v : β) (l : List β) (i : Nat), l.length = n → i < n →
        (store n p v l).length = n ∧ (store n p v l)[i]? = if e.Covers i then some v else l[i]? := by
  obtain ⟨low, high, toks⟩ := e
  rcases h.1 with h1 | ⟨h0, h1, h2⟩
  · simp only at h1
    subst h1
    refine ⟨(-1, -1), by simp [InputShapes.parseEntry], ?_⟩
    intro β v l i hl hi
    obtain ⟨ha, hb⟩ := setFrom_get v n 0 l i
    refine ⟨by simp only [store, if_true]; omega, ?_⟩
    simp only [store, if_true]
    rw [hb, if_pos (by omega)]
    exact (if_pos (show VEntry.Covers _ i from Or.inl rfl)).symm
  · simp only at h0 h1 h2
    refine ⟨(low, high.getD low), ?_, ?_⟩
    · unfold InputShapes.parseEntry
      rw [if_neg (by simp only; omega), if_pos h0]
      cases high with
      | none => rfl
      | some u =>
        have := h2 u rfl
        simp only
        rw [if_neg (by omega)]
        rfl
    · intro β v l i hl hi
      obtain ⟨ha, hb⟩ := setFrom_get v (high.getD low - low + 1).toNat low.toNat l i
      have hne : ¬ low = -1 := by omega
      simp only [store, hne, if_false]
      refine ⟨by omega, ?_⟩
      rw [hb]
      by_cases hc : low ≤ (i : Int) ∧ (i : Int) ≤ high.getD low
      · rw [if_pos (by omega)]
        exact (if_pos (show VEntry.Covers _ i from Or.inr hc)).symm
      · rw [if_neg (by omega)]
        refine (if_neg (show ¬ VEntry.Covers _ i from ?_)).symm
        rintro (h' | h')
        · simp only at h'; omega
        · exact hc h'

theorem spec_ok (n : Nat) (e : VEntry α) (h : e.Valid n) :
    ∃ s, entrySpec e.toks = some s ∧ ∀ lo hi, choose lo hi s = kindOf lo hi e.toks := by
  have hw := words_ok e.toks { min := none, max := none, soz := none } h.2.1
  simp only [Option.or_none] at hw
  refine ⟨{ min := (lows e.toks).getLast?, max := (highs e.toks).getLast?,
            soz := (sozs e.toks).getLast? }, ?_, fun lo hi => ?_⟩
  · unfold entrySpec
    rw [hw]
    simp only
    rw [if_neg]
    rcases h.2.2 with h1 | ⟨h1, h2⟩
    · simp [h1]
    · simp [h1, h2]
  · unfold choose kindOf
    simp only
    cases (sozs e.toks).getLast? <;> rfl

theorem loop_ok (n : Nat) (lo hi : Nat → α) : ∀ (es pre : List (VEntry α)) (l : List (VSpec α)),
    l.length = n → (∀ i, i < n → ∃ s, l[i]? = some s ∧ choose (lo i) (hi i) s = wanted pre (lo i) (hi i) i) →
    (∀ e ∈ es, e.Valid n) →
    ∃ l', valueLoop n es l = some l' ∧ l'.length = n ∧
      ∀ i, i < n → ∃ s, l'[i]? = some s ∧
        choose (lo i) (hi i) s = wanted (pre ++ es) (lo i) (hi i) i := by
  intro es
  induction es with
  | nil => intro pre l hl hg _; exact ⟨l, rfl, hl, by simpa using hg⟩
  | cons e es ih =>
    intro pre l hl hg hv
    obtain ⟨p, hp, hst⟩ := parse_ok n e (hv e (by simp))
    obtain ⟨s, hs, hk⟩ := spec_ok n e (hv e (by simp))
    have hlen : (store n p s l).length = n := by
      by_cases hn : 0 < n
      · exact (hst s l 0 hl hn).1
      · have h0 : n = 0 := by omega
        subst h0
        have : l = [] := List.length_eq_zero_iff.1 hl
        subst this
        unfold store
        split
        · rfl
        · exact (setFrom_get s _ _ [] 0).1
    obtain ⟨l', h1, h2, h3⟩ := ih (pre ++ [e]) (store n p s l) hlen (by
      intro i hi'
      rw [(hst s l i hl hi').2]
      have hw : wanted (pre ++ [e]) (lo i) (hi i) i =
          if e.Covers i then kindOf (lo i) (hi i) e.toks else wanted pre (lo i) (hi i) i := by
        unfold wanted
        rw [List.filter_append]
        by_cases hc : e.Covers i
        · simp [hc]
        · simp [hc]
      rw [hw]
      by_cases hc : e.Covers i
      · exact ⟨s, by rw [if_pos hc], by rw [if_pos hc, hk]⟩
      · obtain ⟨s', ha, hb⟩ := hg i hi'
        exact ⟨s', by rw [if_neg hc, ha], by rw [if_neg hc, hb]⟩)
      (fun x hx => hv x (by simp [hx]))
    refine ⟨l', by rw [valueLoop, hp]; simp only [hs]; exact h1, h2, ?_⟩
    intro i hi'
    have := h3 i hi'
    rwa [List.append_assoc] at this

theorem loop_bad (n : Nat) : ∀ (es : List (VEntry α)) (l : List (VSpec α)),
    (∃ e ∈ es, ¬ e.Valid n) → valueLoop n es l = none := by
  intro es
  induction es with
  | nil => rintro l ⟨e, he, -⟩; simp at he
  | cons e es ih =>
    rintro l ⟨x, hx, hv⟩
    rw [valueLoop]
    cases hp : InputShapes.parseEntry n ⟨e.low, e.high, []⟩ with
    | none => rfl
    | some p =>
      simp only
      cases hs : entrySpec e.toks with
      | none => rfl
      | some s =>
        simp only
        rcases List.mem_cons.1 hx with rfl | hx
        · exfalso
          apply hv
          refine ⟨?_, ?_, ?_⟩
          · have := mt (InputShapes.step_invalid n ⟨x.low, x.high, []⟩ []) (by
              unfold InputShapes.shapeStep
              rw [hp]
              simp)
            exact (not_not.1 this).1
          · intro k hk
            by_contra hc
            unfold entrySpec at hs
            rw [words_bad x.toks _ ⟨k, hk, by omega⟩] at hs
            cases hs
          · have hall : ∀ k ∈ sozs x.toks, -1 ≤ k := by
              intro k hk
              by_contra hc
              unfold entrySpec at hs
              rw [words_bad x.toks _ ⟨k, hk, by omega⟩] at hs
              cases hs
            unfold entrySpec at hs
            rw [words_ok x.toks _ hall] at hs
            simp only [Option.or_none] at hs
            by_contra hc
            push Not at hc
            rw [if_pos] at hs
            · cases hs
            · have h1 := hc.1
              have h2 := hc.2
              by_cases hl : lows x.toks = []
              · have := h2 hl
                simp [h1, this]
              · simp [h1, hl]
        · exact ih _ ⟨x, hx, hv⟩

end Verif.InputValues
