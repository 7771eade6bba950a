import Verif.InputValues.Lemmas
/-!
# C134: the values of inputs that are made at run time
-/
namespace Verif.Props

open Verif.InputValues

/-- C134: with a well-formed option for values, every input is made as the last entry about it asks
for, with its last bounds, and with the defaults where there are none. -/
theorem C134_values {α : Type} (n : Nat) (es : List (VEntry α)) (lo hi : Nat → α)
    (hv : ∀ e ∈ es, e.Valid n) :
    ∃ ks, kinds n es lo hi = some ks ∧ ks.length = n ∧
      ∀ i, i < n → ks[i]? = some (wanted es (lo i) (hi i) i) := by
  obtain ⟨l, h1, h2, h3⟩ := loop_ok n lo hi es []
    (List.replicate n { min := none, max := none, soz := none }) (List.length_replicate)
    (by intro i hi'; exact ⟨{ min := none, max := none, soz := none }, by simp [hi'], rfl⟩) hv
  refine ⟨_, by rw [kinds, h1]; rfl, by simpa using h2, ?_⟩
  intro i hi'
  obtain ⟨s, ha, hb⟩ := h3 i hi'
  rw [List.getElem?_mapIdx, ha]
  simpa using hb

/-- The hypotheses are met by the option `-1:min1,1-2:max5 min2,0:soz4`. -/
example : kinds 3 [⟨-1, none, [.min 1]⟩, ⟨1, some 2, [.max 5, .min 2]⟩, ⟨0, none, [.soz 4]⟩]
    (fun _ => (0 : Int)) (fun _ => 9) = some [.ones 4, .range 2 5, .range 2 5] := by decide

example : ∀ e ∈ [⟨-1, none, [.min 1]⟩, (⟨0, some 1, [.soz 4]⟩ : VEntry Int)], e.Valid 3 := by
  intro e he
  simp only [List.mem_cons, List.not_mem_nil, or_false] at he
  rcases he with rfl | rfl
  · exact ⟨Or.inl rfl, by simp [sozs], Or.inl rfl⟩
  · exact ⟨Or.inr ⟨by simp, by simp, by simp⟩, by simp [sozs], Or.inr ⟨rfl, rfl⟩⟩

/-- C134: an option that is not well-formed is refused: an entry about inputs that do not exist, a
number of ones below -1, or a number of ones together with bounds. -/
theorem C134_invalid {α : Type} (n : Nat) (es : List (VEntry α)) (lo hi : Nat → α)
    (h : ∃ e ∈ es, ¬ e.Valid n) : kinds n es lo hi = none := by
  rw [kinds, loop_bad n es _ h]
  rfl

/-- The hypothesis is met by a number of ones together with a bound. -/
example : ∃ e ∈ [(⟨0, none, [.soz 4, .max 1]⟩ : VEntry Int)], ¬ e.Valid 3 := by
  refine ⟨⟨0, none, [.soz 4, .max 1]⟩, List.mem_cons_self, ?_⟩
  rintro ⟨-, -, h | ⟨-, h⟩⟩
  · cases h
  · cases h

end Verif.Props
