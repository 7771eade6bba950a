import Verif.Fusion.Model
import Mathlib.Tactic.Linarith
import Mathlib.Data.List.GetD

/-!
# Lemmas about broadcasting and the accesses of fused loops
-/

namespace Verif.Fusion

variable {α : Type}

/-- A shape has the type: the number of dimensions, and the extents that are known. -/
def Conforms (t : List (Option Nat)) (s : List Nat) : Prop :=
  t.length = s.length ∧ ∀ (r n : Nat), t[r]? = some (some n) → s.getD r 0 = n

theorem inside_iff {S idx : List Nat} : inside S idx = true ↔
    idx.length = S.length ∧ ∀ r, r < S.length → idx.getD r 0 < S.getD r 0 := by
  simp [inside]

theorem foldl_max_le (l : List Nat) (a : Nat) : a ≤ l.foldl Nat.max a ∧ ∀ x ∈ l, x ≤ l.foldl Nat.max a := by
  induction l generalizing a with
  | nil => simp
  | cons b l ih =>
    obtain ⟨h1, h2⟩ := ih (Nat.max a b)
    have ha : a ≤ Nat.max a b := Nat.le_max_left _ _
    have hb : b ≤ Nat.max a b := Nat.le_max_right _ _
    refine ⟨by simp only [List.foldl_cons]; omega, ?_⟩
    intro x hx
    rcases List.mem_cons.1 hx with rfl | hx
    · simp only [List.foldl_cons]; omega
    · exact h2 x hx

theorem length_le_bRank {ss : List (List Nat)} {s : List Nat} (h : s ∈ ss) : s.length ≤ bRank ss :=
  (foldl_max_le _ 0).2 _ (List.mem_map.2 ⟨s, h, rfl⟩)

theorem bShape_length {ss : List (List Nat)} {S : List Nat} (h : bShape ss = some S) :
    S.length = bRank ss := by
  unfold bShape at h
  split at h
  · cases h; simp
  · exact absurd h (by simp)

theorem bShape_getD {ss : List (List Nat)} {S : List Nat} (h : bShape ss = some S) {j : Nat}
    (hj : j < S.length) : S.getD j 0 = bDim ss j := by
  have hl := bShape_length h
  unfold bShape at h
  split at h
  · cases h
    have hj' : j < bRank ss := by omega
    simp [List.getD, hj']
  · exact absurd h (by simp)

theorem bShape_dim {ss : List (List Nat)} {S : List Nat} (h : bShape ss = some S) {s : List Nat}
    (hs : s ∈ ss) {j : Nat} (hj : j < S.length) :
    padDim S.length s j = 1 ∨ padDim S.length s j = S.getD j 0 := by
  have hg := bShape_getD h hj
  have hl := bShape_length h
  unfold bShape at h
  split at h
  · next hall =>
    rw [List.all_eq_true] at hall
    have h1 := hall s hs
    rw [List.all_eq_true] at h1
    have h2 := h1 j (List.mem_range.2 (by omega))
    rw [hg, hl]
    simpa using h2
  · exact absurd h (by simp)

theorem bShape_one {ss : List (List Nat)} {S : List Nat} (h : bShape ss = some S) {j : Nat}
    (hj : j < S.length) (h1 : ∀ s ∈ ss, padDim S.length s j = 1) : S.getD j 0 = 1 := by
  rw [bShape_getD h hj, bDim]
  have : (ss.map fun s => padDim (bRank ss) s j).find? (fun d => d != 1) = none := by
    rw [List.find?_eq_none]
    intro d hd
    obtain ⟨s, hs, rfl⟩ := List.mem_map.1 hd
    have := h1 s hs
    rw [bShape_length h] at this
    simp [this]
  rw [this]; rfl

theorem padDim_off {n : Nat} {s : List Nat} {r : Nat} (hn : s.length ≤ n) (hr : r < s.length) :
    padDim n s (n - s.length + r) = s.getD r 0 := by
  unfold padDim
  rw [if_neg (by omega)]
  have : n - s.length + r - (n - s.length) = r := by omega
  rw [this]
  simp [List.getD, hr]

theorem conforms_pad {t : List (Option Nat)} {s : List Nat} (h : Conforms t s) {n j : Nat}
    (hj : j < n) (hp : padTy n t j = some 1) : padDim n s j = 1 := by
  unfold padTy at hp; unfold padDim
  rw [h.1] at hp
  split at hp
  · next hlt => rw [if_pos hlt]
  · next hlt =>
    rw [if_neg hlt]
    cases ht : t[j - (n - s.length)]? with
    | none => rw [ht] at hp; simp at hp
    | some o =>
      rw [ht] at hp
      have ho : o = some 1 := by simpa using hp
      rw [ho] at ht
      have h2 := h.2 _ _ ht
      have hlt2 : j - (n - s.length) < s.length := by
        have := (List.getElem?_eq_some_iff.1 ht).1
        rw [h.1] at this; exact this
      rw [List.getD_eq_getElem _ _ hlt2] at h2 ⊢
      exact h2

theorem access_eq {flat : Bool} {tys : List (List (Option Nat))} {ss : List (List Nat)} {S s : List Nat}
    {i : Nat} {idx : List Nat} (hF : List.Forall₂ Conforms tys ss) (hS : bShape ss = some S)
    (hi : ss[i]? = some s) (hidx : inside S idx = true)
    (hlast : flat = true → s.getLast? = some 1 → (tys.getD i []).getLast? = some (some 1)) :
    access flat (tys.getD i []) s (tys.eraseIdx i) idx = bIndex s idx := by
  obtain ⟨hlen, hlt⟩ := inside_iff.1 hidx
  have hs : s ∈ ss := List.mem_of_getElem? hi
  have hil : i < ss.length := (List.getElem?_eq_some_iff.1 hi).1
  have hil' : i < tys.length := by rw [hF.length_eq]; exact hil
  have hc : Conforms (tys.getD i []) s := by
    have := (List.forall₂_iff_get.1 hF).2 i hil' hil
    rw [List.getD_eq_getElem _ _ hil']
    have h2 := (List.getElem?_eq_some_iff.1 hi).2
    simpa [h2] using this
  have hle : s.length ≤ S.length := by rw [bShape_length hS]; exact length_le_bRank hs
  unfold access bIndex
  rw [hc.1]
  apply List.map_congr_left
  intro r hr
  have hr : r < s.length := List.mem_range.1 hr
  have hpos : idx.length - s.length + r < S.length := by omega
  have hd := bShape_dim hS hs hpos
  rw [hlen] at hpos hd ⊢
  rw [padDim_off hle hr] at hd
  have hix := hlt _ hpos
  have hoth : (∀ o ∈ tys.eraseIdx i, padTy S.length o (S.length - s.length + r) = some 1) →
      s.getD r 0 = 1 → S.getD (S.length - s.length + r) 0 = 1 := by
    intro ho h1
    apply bShape_one hS hpos
    intro s' hs'
    obtain ⟨j, hj⟩ := List.mem_iff_getElem?.1 hs'
    by_cases hji : j = i
    · rw [hji] at hj
      rw [hi] at hj; cases hj
      rw [padDim_off hle hr]; exact h1
    · have hjl : j < ss.length := (List.getElem?_eq_some_iff.1 hj).1
      have hjl' : j < tys.length := by rw [hF.length_eq]; exact hjl
      have hcj := (List.forall₂_iff_get.1 hF).2 j hjl' hjl
      have hjs := (List.getElem?_eq_some_iff.1 hj).2
      have hm : tys[j] ∈ tys.eraseIdx i :=
        List.mem_eraseIdx_iff_getElem?.2 ⟨j, hji, by rw [List.getElem?_eq_getElem hjl']⟩
      have hcj' : Conforms tys[j] s' := by simpa [hjs] using hcj
      exact conforms_pad hcj' hpos (ho _ hm)
  unfold accessDim
  by_cases h1 : ((tys.getD i [])[r]?).getD none = some 1
  · rw [if_pos h1]
    have : s.getD r 0 = 1 := by
      cases ht : (tys.getD i [])[r]? with
      | none => rw [ht] at h1; simp at h1
      | some o =>
        rw [ht] at h1
        have ho : o = some 1 := by simpa using h1
        rw [ho] at ht
        exact hc.2 _ _ ht
    rw [if_pos this]
  · rw [if_neg h1]
    by_cases h2 : ((tys.eraseIdx i).all fun o => padTy S.length o (S.length - s.length + r) == some 1) = true
    · rw [if_pos h2]
      by_cases h3 : s.getD r 0 = 1
      · rw [if_pos h3]
        have := hoth (by
          intro o ho
          have := List.all_eq_true.1 h2 o ho
          simpa using this) h3
        omega
      · rw [if_neg h3]
    · rw [if_neg h2]
      by_cases h4 : (flat && r + 1 == s.length) = true
      · rw [if_pos h4]
        by_cases h3 : s.getD r 0 = 1
        · exfalso
          simp only [Bool.and_eq_true, beq_iff_eq] at h4
          apply h1
          have hl := hlast h4.1 (by
            rw [List.getLast?_eq_getElem?]
            have : s.length - 1 = r := by omega
            rw [this, List.getElem?_eq_getElem hr]
            rw [List.getD_eq_getElem _ _ hr] at h3
            rw [h3])
          rw [List.getLast?_eq_getElem?, hc.1] at hl
          have : s.length - 1 = r := by omega
          rw [this] at hl
          rw [hl]; rfl
        · rw [if_neg h3]
      · rw [if_neg h4]
        by_cases h5 : 1 < s.getD r 0
        · rw [if_pos h5, if_neg (by omega)]
        · rw [if_neg h5]
          by_cases h3 : s.getD r 0 = 1
          · rw [if_pos h3]
          · rw [if_neg h3]; omega

theorem bIndex_self {S idx : List Nat} (h : inside S idx = true) : bIndex S idx = idx := by
  obtain ⟨hl, hlt⟩ := inside_iff.1 h
  unfold bIndex
  apply List.ext_getElem
  · simp [hl]
  · intro r h1 h2
    have hr : r < S.length := by simpa using h1
    have := hlt r hr
    rw [List.getD_eq_getElem _ _ h2] at this
    simp only [List.getElem_map, List.getElem_range]
    split
    · omega
    · have e : idx.length - S.length + r = r := by omega
      rw [e, List.getD_eq_getElem _ _ h2]

theorem bShape_single (s : List Nat) : bShape [s] = some s := by
  have hr : bRank [s] = s.length := by simp [bRank]
  have hp : ∀ j, j < s.length → padDim s.length s j = s.getD j 0 := by
    intro j hj
    have := padDim_off (n := s.length) (s := s) (Nat.le_refl _) hj
    simpa using this
  have hb : ∀ j, j < s.length → bDim [s] j = s.getD j 0 := by
    intro j hj
    unfold bDim
    rw [hr]
    simp only [List.map_cons, List.map_nil, hp j hj]
    by_cases h1 : s.getD j 0 = 1
    · rw [h1]; rfl
    · rw [List.find?_cons_of_pos (by simpa using h1)]; rfl
  unfold bShape
  rw [hr, if_pos]
  · congr 1
    apply List.ext_getElem
    · simp
    · intro j h1 h2
      rw [List.getElem_map, List.getElem_range, hb j h2, List.getD_eq_getElem _ _ h2]
  · rw [List.all_eq_true]
    intro s' hs'
    rw [List.mem_singleton.1 hs', List.all_eq_true]
    intro j hj
    have hj := List.mem_range.1 hj
    rw [hp j hj, hb j hj]
    simp

theorem bShape_scalars (s : List Nat) : bShape [s, [], []] = some s := by
  have hr : bRank [s, [], []] = s.length := by simp [bRank]
  have hp : ∀ j, j < s.length → padDim s.length s j = s.getD j 0 := by
    intro j hj
    have := padDim_off (n := s.length) (s := s) (Nat.le_refl _) hj
    simpa using this
  have hp0 : ∀ j, j < s.length → padDim s.length [] j = 1 := by
    intro j hj; unfold padDim; rw [if_pos (by simpa using hj)]
  have hb : ∀ j, j < s.length → bDim [s, [], []] j = s.getD j 0 := by
    intro j hj
    unfold bDim
    rw [hr]
    simp only [List.map_cons, List.map_nil, hp j hj, hp0 j hj]
    by_cases h1 : s.getD j 0 = 1
    · rw [h1]; rfl
    · rw [List.find?_cons_of_pos (by simpa using h1)]; rfl
  unfold bShape
  rw [hr, if_pos]
  · congr 1
    apply List.ext_getElem
    · simp
    · intro j h1 h2
      rw [List.getElem_map, List.getElem_range, hb j h2, List.getD_eq_getElem _ _ h2]
  · rw [List.all_eq_true]
    intro s' hs'
    rw [List.all_eq_true]
    intro j hj
    have hj := List.mem_range.1 hj
    rcases List.mem_cons.1 hs' with rfl | hs'
    · rw [hp j hj, hb j hj]; simp
    · have : s' = [] := by simpa using hs'
      rw [this, hp0 j hj]; simp

end Verif.Fusion
