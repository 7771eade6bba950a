import Mathlib.Data.List.Basic

/-!
# Regular expressions

The meaning of the regular expressions of the C++ library (`std::regex_match`), as far as they are used for Einsum, and an
executable matcher with a proof that it agrees. Nothing here models code of onnx-mlir.
-/

namespace Verif.Einsum

/-- Regular expressions over characters. -/
inductive Re where
  | eps
  | set (p : Char → Bool)
  | seq (a b : Re)
  | alt (a b : Re)
  | star (a : Re)

/-- The texts that a regular expression stands for. -/
inductive Re.Mem : Re → List Char → Prop
  | eps : Mem .eps []
  | set {p : Char → Bool} {c : Char} (h : p c = true) : Mem (.set p) [c]
  | seq {a b : Re} {s t : List Char} : Mem a s → Mem b t → Mem (.seq a b) (s ++ t)
  | altL {a b : Re} {s : List Char} : Mem a s → Mem (.alt a b) s
  | altR {a b : Re} {s : List Char} : Mem b s → Mem (.alt a b) s
  | starNil {a : Re} : Mem (.star a) []
  | starCons {a : Re} {s t : List Char} : Mem a s → Mem (.star a) t → Mem (.star a) (s ++ t)

/-- Whether the empty text matches. -/
def Re.nullable : Re → Bool
  | .eps => true
  | .set _ => false
  | .seq a b => a.nullable && b.nullable
  | .alt a b => a.nullable || b.nullable
  | .star _ => true

/-- What is left to match after a character. -/
def Re.deriv (c : Char) : Re → Re
  | .eps => .set fun _ => false
  | .set p => if p c then .eps else .set fun _ => false
  | .seq a b => if a.nullable then .alt (.seq (a.deriv c) b) (b.deriv c) else .seq (a.deriv c) b
  | .alt a b => .alt (a.deriv c) (b.deriv c)
  | .star a => .seq (a.deriv c) (.star a)

/-- Whether a text matches. -/
def Re.accepts (r : Re) (s : List Char) : Bool := (s.foldl (fun r c => r.deriv c) r).nullable

theorem Re.nullable_iff (r : Re) : r.nullable = true ↔ r.Mem [] := by
  induction r with
  | eps => simp [nullable, Mem.eps]
  | set p =>
    simp only [nullable, Bool.false_eq_true, false_iff]
    intro h
    cases h
  | seq a b iha ihb =>
    rw [nullable, Bool.and_eq_true, iha, ihb]
    constructor
    · rintro ⟨h1, h2⟩
      exact Mem.seq (s := []) (t := []) h1 h2
    · intro h
      generalize hs : ([] : List Char) = s at h
      cases h with
      | seq h1 h2 =>
        rename_i s t
        obtain ⟨rfl, rfl⟩ := List.append_eq_nil_iff.1 hs.symm
        exact ⟨h1, h2⟩
  | alt a b iha ihb =>
    rw [nullable, Bool.or_eq_true, iha, ihb]
    constructor
    · rintro (h | h)
      · exact .altL h
      · exact .altR h
    · intro h
      cases h with
      | altL h => exact .inl h
      | altR h => exact .inr h
  | star a _ => simp [nullable, Mem.starNil]

theorem Re.mem_seq {a b : Re} {s : List Char} : (Re.seq a b).Mem s ↔ ∃ u v, s = u ++ v ∧ a.Mem u ∧ b.Mem v := by
  constructor
  · intro h
    cases h with
    | seq h1 h2 => exact ⟨_, _, rfl, h1, h2⟩
  · rintro ⟨u, v, rfl, h1, h2⟩
    exact .seq h1 h2

theorem Re.mem_alt {a b : Re} {s : List Char} : (Re.alt a b).Mem s ↔ a.Mem s ∨ b.Mem s := by
  constructor
  · intro h
    cases h with
    | altL h => exact .inl h
    | altR h => exact .inr h
  · rintro (h | h)
    · exact .altL h
    · exact .altR h

theorem Re.mem_set {p : Char → Bool} {s : List Char} : (Re.set p).Mem s ↔ ∃ c, p c = true ∧ s = [c] := by
  constructor
  · intro h
    cases h with
    | set h => exact ⟨_, h, rfl⟩
  · rintro ⟨c, h, rfl⟩
    exact .set h

theorem Re.mem_eps {s : List Char} : Re.eps.Mem s ↔ s = [] := by
  constructor
  · intro h; cases h; rfl
  · rintro rfl; exact .eps

theorem Re.star_cons {a : Re} {c : Char} {s : List Char} :
    (Re.star a).Mem (c :: s) ↔ ∃ u v, s = u ++ v ∧ a.Mem (c :: u) ∧ (Re.star a).Mem v := by
  constructor
  · intro h
    generalize hr : Re.star a = r at h
    generalize hs : c :: s = t at h
    induction h with
    | eps => cases hr
    | set _ => cases hr
    | seq _ _ _ _ => cases hr
    | altL _ _ => cases hr
    | altR _ _ => cases hr
    | starNil => cases hs
    | starCons h1 h2 ih1 ih2 =>
      rename_i b u v
      cases hr
      cases u with
      | nil => exact ih2 rfl hs
      | cons d u =>
        rw [List.cons_append] at hs
        obtain ⟨rfl, rfl⟩ := List.cons.inj hs
        exact ⟨u, v, rfl, h1, h2⟩
  · rintro ⟨u, v, rfl, h1, h2⟩
    exact Mem.starCons (s := c :: u) h1 h2

theorem Re.deriv_iff (c : Char) (r : Re) : ∀ s, (r.deriv c).Mem s ↔ r.Mem (c :: s) := by
  have hfail : ∀ s, ¬ (Re.set fun _ => false).Mem s := by
    intro s h
    obtain ⟨d, h, -⟩ := mem_set.1 h
    cases h
  induction r with
  | eps =>
    intro s
    exact ⟨fun h => absurd h (hfail s), fun h => by cases mem_eps.1 h⟩
  | set p =>
    intro s
    unfold deriv
    by_cases h : p c
    · rw [if_pos h, mem_eps, mem_set]
      constructor
      · rintro rfl; exact ⟨c, h, rfl⟩
      · rintro ⟨d, -, hd⟩; exact (List.cons.inj hd).2
    · rw [if_neg h]
      refine ⟨fun h => absurd h (hfail s), fun h' => ?_⟩
      obtain ⟨d, hd, he⟩ := mem_set.1 h'
      exact absurd ((List.cons.inj he).1 ▸ hd) h
  | seq a b iha ihb =>
    intro s
    have key : (Re.seq a b).Mem (c :: s) ↔ (Re.seq (a.deriv c) b).Mem s ∨ (a.nullable = true ∧ (b.deriv c).Mem s) := by
      rw [mem_seq, mem_seq]
      constructor
      · rintro ⟨u, v, h, h1, h2⟩
        cases u with
        | nil =>
          rw [List.nil_append] at h
          subst h
          exact .inr ⟨(nullable_iff a).2 h1, (ihb s).2 h2⟩
        | cons d u =>
          rw [List.cons_append] at h
          obtain ⟨rfl, rfl⟩ := List.cons.inj h
          exact .inl ⟨u, v, rfl, (iha u).2 h1, h2⟩
      · rintro (⟨u, v, rfl, h1, h2⟩ | ⟨h1, h2⟩)
        · exact ⟨c :: u, v, rfl, (iha u).1 h1, h2⟩
        · exact ⟨[], c :: s, rfl, (nullable_iff a).1 h1, (ihb s).1 h2⟩
    rw [key]
    show (if a.nullable then Re.alt (.seq (a.deriv c) b) (b.deriv c) else .seq (a.deriv c) b).Mem s ↔ _
    by_cases h : a.nullable
    · rw [if_pos h, mem_alt]
      simp [h]
    · rw [if_neg h]
      simp [h]
  | alt a b iha ihb =>
    intro s
    rw [deriv, mem_alt, mem_alt, iha, ihb]
  | star a ih =>
    intro s
    rw [deriv, mem_seq, star_cons]
    exact exists_congr fun u => exists_congr fun v => and_congr_right fun _ => and_congr_left fun _ => ih u

theorem Re.accepts_iff (r : Re) (s : List Char) : r.accepts s = true ↔ r.Mem s := by
  unfold accepts
  induction s generalizing r with
  | nil => exact nullable_iff r
  | cons c s ih => rw [List.foldl_cons, ih, deriv_iff]

end Verif.Einsum
