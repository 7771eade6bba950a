import Verif.Builder.EntryLemmas

/-!
C84: verification of the inputs by the entry point of a compiled model.
-/

namespace Verif.Props

open Verif.Builder

/-- The checks never read out of bounds, whatever the user gives, and succeed exactly for valid inputs. -/
theorem C84_verify (sig : List InSig) (ub lb : List ShapeEntry) (hu : ∀ e ∈ ub, e.Ok) (hl : ∀ e ∈ lb, e.Ok)
    (mu ml : List (ℤ × List (Option ℕ))) (hmu : parseShapeInformation (shapeText ub) = some mu)
    (hml : parseShapeInformation (shapeText lb) = some ml) (cs : List Check) (hcs : emitChecks sig mu ml = some cs) (ts : List InTensor) :
    ∃ accepted, runChecks ts cs = some accepted ∧ (accepted = true ↔ Accepts sig ub lb ts) := by
  have ku := keysOk_parse _ _ hmu
  have kl := keysOk_parse _ _ hml
  obtain ⟨mu', hmu', lu⟩ := parseShape_text ub hu
  obtain ⟨ml', hml', ll⟩ := parseShape_text lb hl
  rw [hmu] at hmu'
  rw [hml] at hml'
  cases hmu'
  cases hml'
  unfold emitChecks at hcs
  obtain ⟨u, hu', hcs⟩ := Option.bind_eq_some_iff.1 hcs
  obtain ⟨l, hl', hcs⟩ := Option.map_eq_some_iff.1 hcs
  subst hcs
  have h := sem_append (sem_append (emitInputs_sem sig ts) fun hm => bounds_sem hm hu') fun hm => bounds_sem hm.1 hl'
  refine sem_congr h ?_
  constructor
  · rintro ⟨⟨hm, bu⟩, bl⟩
    refine ⟨hm.1, fun k s t hs ht => ?_⟩
    have hk := (List.getElem?_eq_some_iff.1 hs).1
    have hms := hm.2 k s t hs ht
    refine ⟨hms.dtype, hms.rank, fun d x v hx hv => hms.dims d x _ hx hv, fun d x hx => ?_, fun d x b hx hb => ?_, fun d x b hx hb => ?_⟩
    · have hd : d < s.dims.length := by
        rw [← hms.rank]
        exact (List.getElem?_eq_some_iff.1 hx).1
      have := hms.dims d x _ hx (List.getElem?_eq_getElem hd)
      generalize s.dims[d] = o at this
      cases o with
      | none => exact this
      | some v => simp only at this; omega
    · obtain ⟨p, hp, hi, hd⟩ := (bounds_iff ku lu k hk d b).2 hb
      simpa [BoundOk] using bu p hp k hi t ht d x b hx hd
    · obtain ⟨p, hp, hi, hd⟩ := (bounds_iff kl ll k hk d b).2 hb
      simpa [BoundOk] using bl p hp k hi t ht d x b hx hd
  · rintro ⟨hlen, ha⟩
    refine ⟨⟨⟨hlen, fun k s t hs ht => ?_⟩, ?_⟩, ?_⟩
    · have h := ha k s t hs ht
      refine ⟨h.dtype, h.rank, fun d x o hx ho => ?_⟩
      cases o with
      | none => exact h.nonneg d x hx
      | some v => exact h.static d x v hx ho
    · intro p hp i hi t ht d x b hx hd
      have hik : i < sig.length := by rw [← hlen]; exact (List.getElem?_eq_some_iff.1 ht).1
      have h := ha i _ t (List.getElem?_eq_getElem hik) ht
      simpa [BoundOk] using h.upper d x b hx ((bounds_iff ku lu i hik d b).1 ⟨p, hp, hi, hd⟩)
    · intro p hp i hi t ht d x b hx hd
      have hik : i < sig.length := by rw [← hlen]; exact (List.getElem?_eq_some_iff.1 ht).1
      have h := ha i _ t (List.getElem?_eq_getElem hik) ht
      simpa [BoundOk] using h.lower d x b hx ((bounds_iff kl ll i hik d b).1 ⟨p, hp, hi, hd⟩)

/-- The checks are emitted when the bounds are for inputs and dimensions that exist. -/
theorem C84_emit (sig : List InSig) (ub lb : List ShapeEntry) (hu : ∀ e ∈ ub, e.Ok) (hl : ∀ e ∈ lb, e.Ok) (fu : BoundsFit sig ub)
    (fl : BoundsFit sig lb) :
    ∃ mu ml cs, parseShapeInformation (shapeText ub) = some mu ∧ parseShapeInformation (shapeText lb) = some ml ∧
      emitChecks sig mu ml = some cs := by
  have key : ∀ (upper : Bool) (es : List ShapeEntry), (∀ e ∈ es, e.Ok) → BoundsFit sig es →
      ∃ m cs, parseShapeInformation (shapeText es) = some m ∧ emitBounds upper sig m = some cs := by
    intro upper es he hf
    obtain ⟨m, hm, hl⟩ := parseShape_text es he
    have hk := keysOk_parse _ _ hm
    have : ∃ r, m.mapM (emitBoundEntry upper sig) = some r := by
      apply mapM_isSome
      intro p hp
      have h1 := hk p hp
      rw [hl] at h1
      obtain ⟨e, hfe, e'⟩ := Option.map_eq_some_iff.1 h1
      have hmem : p.1 ∈ e.sel.ids := by simpa using List.find?_some hfe
      have hin := List.mem_of_find?_eq_some hfe
      have : ∃ r, (boundIds sig.length p.1).mapM (emitBoundInput upper sig p.2) = some r := by
        apply mapM_isSome
        intro i hi
        have hs : ∃ s, sig[i]? = some s ∧ p.2.length ≤ s.dims.length := by
          unfold boundIds at hi
          by_cases hp1 : p.1 = -1
          · rw [if_pos hp1] at hi
            have hlt := List.mem_range.1 hi
            rw [hp1] at hmem
            exact ⟨_, List.getElem?_eq_getElem hlt, by rw [← e']; exact (hf e hin).1 ((mem_ids_all _).1 hmem) _ (List.getElem_mem hlt)⟩
          · rw [if_neg hp1, List.mem_singleton] at hi
            have hpi : p.1 = (i : ℤ) := by
              rcases ids_range _ _ hmem with h | h
              · exact absurd h hp1
              · omega
            rw [hpi] at hmem
            obtain ⟨s, h1, h2⟩ := (hf e hin).2 i ((mem_ids_nat _ _).1 hmem)
            exact ⟨s, h1, by rw [← e']; exact h2⟩
        obtain ⟨s, h1, h2⟩ := hs
        exact ⟨_, by unfold emitBoundInput; rw [h1]; simp [h2]; rfl⟩
      obtain ⟨r, hr⟩ := this
      exact ⟨_, by unfold emitBoundEntry; rw [hr]; rfl⟩
    obtain ⟨r, hr⟩ := this
    exact ⟨m, r.flatten, hm, by unfold emitBounds; rw [hr]; rfl⟩
  obtain ⟨mu, cu, h1, h2⟩ := key true ub hu fu
  obtain ⟨ml, cl, h3, h4⟩ := key false lb hl fl
  exact ⟨mu, ml, _, h1, h3, by unfold emitChecks; rw [h2, h4]; rfl⟩

/-! ### Cases -/

/-- Two inputs of type float, `[?, 3]` and `[4]`; upper bound `0:8`, lower bound `-1:2`. -/
def entryDemo : List InSig := [⟨some 1, [none, some 3]⟩, ⟨some 1, [some 4]⟩]

def entryUb : List ShapeEntry := [⟨.one 0, [some 8]⟩]
def entryLb : List ShapeEntry := [⟨.all, [some 2]⟩]

/-- Which of some inputs are accepted. -/
def entryRun (ts : List InTensor) : Option Bool :=
  (parseShapeInformation (shapeText entryUb)).bind fun mu => (parseShapeInformation (shapeText entryLb)).bind fun ml =>
    (emitChecks entryDemo mu ml).bind fun cs => runChecks ts cs

example : (∀ e ∈ entryUb, e.Ok) ∧ (∀ e ∈ entryLb, e.Ok) ∧ BoundsFit entryDemo entryUb ∧ BoundsFit entryDemo entryLb := by
  refine ⟨?_, ?_, ?_, ?_⟩
  · intro e he
    simp only [entryUb, List.mem_singleton] at he
    subst he
    exact ⟨by simp [Sel.Small], fun d hd => by simp at hd; omega⟩
  · intro e he
    simp only [entryLb, List.mem_singleton] at he
    subst he
    exact ⟨by simp [Sel.Small], fun d hd => by simp at hd; omega⟩
  · intro e he
    simp only [entryUb, List.mem_singleton] at he
    subst he
    refine ⟨by simp [Sel.isAll], fun k hk => ?_⟩
    simp [Sel.names] at hk
    subst hk
    exact ⟨_, rfl, by simp⟩
  · intro e he
    simp only [entryLb, List.mem_singleton] at he
    subst he
    exact ⟨fun _ => by simp [entryDemo], fun k hk => by simp [Sel.names] at hk⟩

example : [entryRun [⟨1, [8, 3]⟩, ⟨1, [4]⟩], entryRun [⟨1, [9, 3]⟩, ⟨1, [4]⟩], entryRun [⟨1, [1, 3]⟩, ⟨1, [4]⟩], entryRun [⟨1, [8, 3]⟩],
    entryRun [⟨1, [8]⟩, ⟨1, [4]⟩], entryRun [⟨11, [8, 3]⟩, ⟨1, [4]⟩]] =
    [some true, some false, some false, some false, some false, some false] := by decide +kernel

/-- The type of an input of strings is not checked: a tensor of numbers is accepted, and its elements will be used as pointers. -/
theorem C84_string_false : ∃ cs, emitChecks [⟨none, [some 1]⟩] [] [] = some cs ∧ runChecks [⟨7, [1]⟩] cs = some true :=
  ⟨_, rfl, by decide +kernel⟩

/-- A bound for an input that does not exist reads past the end of the signature while compiling. -/
theorem C84_bound_input_false : emitChecks entryDemo [(2, [some 3])] [] = none := by decide +kernel

end Verif.Props
