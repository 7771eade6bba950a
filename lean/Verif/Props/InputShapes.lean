import Verif.InputShapes.Lemmas
/-!
# C129: the shapes of inputs that are made at run time
-/
namespace Verif.Props

open Verif.InputShapes

/-- C129: with a well-formed option for shapes, the inputs that are made have the shapes `ts` exactly
when these are the only ones that have no unknown sizes, the sizes of the signature and the sizes that
the option asks for. So nothing is made when the option and the signature contradict each other, and
when a size is still open. -/
theorem C129_shapes_partial (sig : List (List Int)) (es : List Entry) (hv : ∀ e ∈ es, e.Valid sig.length)
    (ts : List (List Int)) :
    create sig es = some ts ↔ Fits sig es ts ∧ ∀ ts', Fits sig es ts' → ts' = ts := by
  obtain ⟨ov, h1, h2, h3⟩ := loop_valid sig.length es [] (List.replicate sig.length [])
    (by simp) (by intro i hi; simp [hi, asked]) hv
  rw [create_eq, parseShapeInfo, h1]
  simp only
  rw [finalAll_at sig ov ts (asked es) h2 (by simpa using h3)]
  exact allAt_unique (fun i s t => ShapeFits s (asked es i) t) _
    (fun i s t => finalShape_iff s _ t) sig ts

/-- C129: nothing is made when an entry of the option is not well-formed. -/
theorem C129_invalid (sig : List (List Int)) (es : List Entry) (h : ∃ e ∈ es, ¬ e.Valid sig.length) :
    create sig es = none := by
  rw [create_eq, parseShapeInfo, loop_invalid sig.length es _ h]

/-- The hypotheses are met by the option `-1:3,0-1:-1x5`, and the two inputs have their shapes. -/
example : (∀ e ∈ [⟨-1, none, [3]⟩, (⟨0, some 1, [-1, 5]⟩ : Entry)], e.Valid 3) ∧
    create [[2, -1], [4, 5, 6], [-1]] [⟨-1, none, [3]⟩, ⟨0, some 1, [-1, 5]⟩] =
      some [[2, 5], [4, 5, 6], [3]] := by
  refine ⟨?_, by decide +kernel⟩
  intro e he
  simp only [List.mem_cons, List.not_mem_nil, or_false] at he
  rcases he with rfl | rfl
  · exact ⟨Or.inl rfl, by simp⟩
  · refine ⟨Or.inr ⟨by simp, by simp, by simp⟩, by simp⟩

/-- The hypothesis of `C129_invalid` is met by a range that ends after the last input. -/
example : ∃ e ∈ [(⟨0, some 3, [1]⟩ : Entry)], ¬ e.Valid 3 := by
  refine ⟨⟨0, some 3, [1]⟩, List.mem_cons_self, ?_⟩
  rintro ⟨h | ⟨-, -, h⟩, -⟩
  · simp at h
  · have := h 3 rfl
    simp at this

/-- C129 is false for the rank: an option that asks for more dimensions than an input has is not
refused, and what it asks for is not looked at. -/
theorem C129_rank_false (s a b : List Int) (hs : ∀ d ∈ s, 0 ≤ d) (ha : a = s) (hb : ∀ d ∈ b, -1 ≤ d) :
    create [s] [⟨0, none, a ++ b⟩] = some [s] := by
  subst ha
  refine (C129_shapes_partial _ _ ?_ _).2 ?_
  · intro e he
    simp only [List.mem_singleton] at he
    subst he
    refine ⟨Or.inr ⟨by simp, by simp, by simp⟩, ?_⟩
    intro d hd
    rcases List.mem_append.1 hd with h | h
    · have := hs d h; omega
    · exact hb d h
  · have hask : asked [⟨0, none, a ++ b⟩] 0 = a ++ b := by simp [asked, Entry.Covers]
    have key : ∀ t, ShapeFits a (a ++ b) t → t = a := by
      intro t ht
      apply List.ext_getElem ht.1
      intro k h1 h2
      exact (ht.2 k a[k] t[k] (List.getElem?_eq_getElem _) (List.getElem?_eq_getElem _)).2.1
        (hs _ (List.getElem_mem _))
    have self : ShapeFits a (a ++ b) a := by
      refine ⟨rfl, fun k x v hx hv => ?_⟩
      rw [hx] at hv
      cases hv
      have hk : k < a.length := by
        by_contra hc
        rw [List.getElem?_eq_none (by omega)] at hx
        cases hx
      refine ⟨hs _ (List.mem_of_getElem? hx), fun _ => rfl, ?_⟩
      intro y hy _
      rw [List.getElem?_append_left hk, hx] at hy
      exact Option.some.inj hy
    refine ⟨⟨rfl, ?_⟩, ?_⟩
    · intro i s t h1 h2
      cases i with
      | zero =>
        simp only [List.getElem?_cons_zero, Option.some.injEq] at h1 h2
        subst h1; subst h2
        rw [hask]
        exact self
      | succ i => simp at h1
    · intro ts' h
      obtain ⟨hl, h⟩ := h
      match ts', hl with
      | [t], _ =>
        have := h 0 a t rfl rfl
        rw [hask] at this
        rw [key t this]

/-- The hypotheses are met. -/
example : (∀ d ∈ [(2 : Int), 3], 0 ≤ d) ∧ (∀ d ∈ [(7 : Int)], -1 ≤ d) := by simp

end Verif.Props
