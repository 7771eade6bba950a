import Verif.Rewrite.TransposeLemmas
import Mathlib.Data.Finset.Card
import Mathlib.Data.Finset.Range
import Mathlib.Data.Finset.Dedup
import Mathlib.Data.List.Dedup

/-! # Laws of Squeeze and Unsqueeze -/

namespace Verif.Rewrite

variable {V : Type} [Inhabited V]

/-- `dropAt` with positions counted from `k`. -/
def dropFrom {α : Type} (ax : List ℕ) (k : ℕ) (s : List α) : List α :=
  ((s.zipIdx k).filter fun p => p.2 ∉ ax).map Prod.fst

theorem dropFrom_cons {α : Type} (ax : List ℕ) (k : ℕ) (a : α) (s : List α) :
    dropFrom ax k (a :: s) = if k ∈ ax then dropFrom ax (k + 1) s else a :: dropFrom ax (k + 1) s := by
  unfold dropFrom
  rw [List.zipIdx_cons, List.filter_cons]
  by_cases h : k ∈ ax <;> simp [h]

theorem dropAt_eq {α : Type} (ax : List ℕ) (s : List α) : dropAt ax s = dropFrom ax 0 s := rfl

/-- Positions of a range that are not listed. -/
def free (ax : List ℕ) (k n : ℕ) : ℕ := ((List.range' k n).filter fun j => j ∉ ax).length

theorem free_succ (ax : List ℕ) (k n : ℕ) :
    free ax k (n + 1) = free ax (k + 1) n + if k ∈ ax then 0 else 1 := by
  unfold free
  rw [List.range'_succ, List.filter_cons]
  by_cases h : k ∈ ax <;> simp [h]

theorem free_zero (ax : List ℕ) (k : ℕ) : free ax k 0 = 0 := rfl

theorem dropFrom_length {α : Type} (ax : List ℕ) : ∀ (k : ℕ) (s : List α),
    (dropFrom ax k s).length = free ax k s.length
  | _, [] => rfl
  | k, a :: s => by
    rw [dropFrom_cons, List.length_cons, free_succ, ← dropFrom_length ax (k + 1) s]
    by_cases h : k ∈ ax <;> simp [h]

theorem dropFrom_insertOnes (ax : List ℕ) : ∀ (n k : ℕ) (s : List ℕ), s.length = free ax k n →
    dropFrom ax k (insertOnes ax k n s) = s
  | 0, k, s, h => by
    rw [free_zero] at h
    rw [List.length_eq_zero_iff.1 h]
    rfl
  | n + 1, k, s, h => by
    rw [free_succ] at h
    unfold insertOnes
    by_cases hk : k ∈ ax
    · rw [if_pos hk] at h ⊢
      rw [dropFrom_cons, if_pos hk]
      exact dropFrom_insertOnes ax n (k + 1) s h
    · rw [if_neg hk] at h ⊢
      cases s with
      | nil => simp at h
      | cons d s =>
        simp only
        rw [dropFrom_cons, if_neg hk, dropFrom_insertOnes ax n (k + 1) s (by simpa using h)]

theorem insertOnes_dropFrom (ax : List ℕ) : ∀ (k : ℕ) (s : List ℕ),
    (∀ j < s.length, k + j ∈ ax → s.getD j 0 = 1) →
    insertOnes ax k s.length (dropFrom ax k s) = s
  | _, [], _ => rfl
  | k, a :: s, h => by
    have ih := insertOnes_dropFrom ax (k + 1) s (fun j hj hm => by
      have := h (j + 1) (by simpa using hj) (by rwa [← Nat.add_assoc, Nat.add_right_comm])
      simpa using this)
    rw [dropFrom_cons, List.length_cons]
    unfold insertOnes
    by_cases hk : k ∈ ax
    · rw [if_pos hk, if_pos hk, ih]
      have := h 0 (by simp) (by simpa using hk)
      simp at this
      rw [this]
    · rw [if_neg hk, if_neg hk]
      simp only
      rw [ih]

theorem free_add (ax : List ℕ) (n : ℕ) (h : ∀ a ∈ ax, a < n) : free ax 0 n + ax.toFinset.card = n := by
  have h1 : free ax 0 n = (Finset.range n \ ax.toFinset).card := by
    unfold free
    rw [← List.range_eq_range']
    have : ((List.range n).filter fun j => j ∉ ax).toFinset = Finset.range n \ ax.toFinset := by
      ext j; simp
    rw [← this, List.toFinset_card_of_nodup (List.Nodup.filter _ List.nodup_range)]
  have h2 : ax.toFinset ⊆ Finset.range n := by
    intro a ha
    exact Finset.mem_range.2 (h a (by simpa using ha))
  rw [h1, Finset.card_sdiff_add_card_eq_card h2, Finset.card_range]

theorem dropFrom_congr {α : Type} {ax bx : List ℕ} (h : ∀ a, a ∈ ax ↔ a ∈ bx) (k : ℕ) (s : List α) :
    dropFrom ax k s = dropFrom bx k s := by
  unfold dropFrom
  simp only [h]

theorem insertOnes_congr {ax bx : List ℕ} (h : ∀ a, a ∈ ax ↔ a ∈ bx) : ∀ (n k : ℕ) (s : List ℕ),
    insertOnes ax k n s = insertOnes bx k n s
  | 0, _, _ => rfl
  | n + 1, k, s => by
    unfold insertOnes
    by_cases hk : k ∈ ax
    · rw [if_pos hk, if_pos ((h k).1 hk), insertOnes_congr h]
    · rw [if_neg hk, if_neg (fun hc => hk ((h k).2 hc))]
      cases s <;> simp only [insertOnes_congr h n]

theorem axes_lt {r : ℕ} {l : List ℤ} {ax : List ℕ} (h : l.mapM (normAxis r) = some ax) :
    ∀ a ∈ ax, a < r := by
  rw [mapM_forall₂] at h
  intro a ha
  induction h with
  | nil => cases ha
  | cons hx _ ih =>
    rcases List.mem_cons.1 ha with rfl | ha
    · exact normAxis_lt hx
    · exact ih ha

theorem axes_mem {r : ℕ} {l : List ℤ} {ax : List ℕ} (h : l.mapM (normAxis r) = some ax) (n : ℕ) :
    n ∈ ax ↔ ∃ a ∈ l, normAxis r a = some n := by
  rw [mapM_forall₂] at h
  induction h with
  | nil => simp
  | @cons a b l ax hx _ ih =>
    rw [List.mem_cons, ih]
    constructor
    · rintro (rfl | ⟨c, hc, hn⟩)
      · exact ⟨a, by simp, hx⟩
      · exact ⟨c, by simp [hc], hn⟩
    · rintro ⟨c, hc, hn⟩
      rcases List.mem_cons.1 hc with rfl | hc
      · rw [hx] at hn
        exact .inl (Option.some.inj hn).symm
      · exact .inr ⟨c, hc, hn⟩

theorem squeeze_some {x y : Tensor V} {s : List ℤ} :
    squeeze x (some s) = some y ↔ ∃ ax, s.mapM (normAxis x.shape.length) = some ax ∧
      (∀ a ∈ ax, x.shape.getD a 0 = 1) ∧ x.retag (dropFrom ax 0 x.shape) = some y := by
  simp only [squeeze, Option.bind_eq_some_iff]
  constructor
  · rintro ⟨ax, h, g⟩
    split at g
    · rename_i ha
      exact ⟨ax, h, ha, g⟩
    · cases g
  · rintro ⟨ax, h, ha, g⟩
    exact ⟨ax, h, by rw [if_pos ha]; exact g⟩

theorem unsqueeze_some {x y : Tensor V} {u : List ℤ} :
    unsqueeze x u = some y ↔ ∃ ax, u.mapM (normAxis (x.shape.length + u.length)) = some ax ∧
      ax.Nodup ∧ x.retag (insertOnes ax 0 (x.shape.length + u.length) x.shape) = some y := by
  simp only [unsqueeze, Option.bind_eq_some_iff]
  constructor
  · rintro ⟨ax, h, g⟩
    split at g
    · rename_i ha
      exact ⟨ax, h, ha, g⟩
    · cases g
  · rintro ⟨ax, h, ha, g⟩
    exact ⟨ax, h, by rw [if_pos ha]; exact g⟩

theorem insertOnes_length (ax : List ℕ) : ∀ (n k : ℕ) (s : List ℕ), (insertOnes ax k n s).length = n
  | 0, _, _ => rfl
  | n + 1, k, s => by
    unfold insertOnes
    split
    · simp [insertOnes_length]
    · cases s <;> simp [insertOnes_length]

theorem nodup_axes_length {r : ℕ} {l : List ℤ} {ax : List ℕ} (h : l.mapM (normAxis r) = some ax)
    (hn : ax.Nodup) : ax.toFinset.card = l.length := by
  rw [List.toFinset_card_of_nodup hn]
  exact (mapM_forall₂.1 h).length_eq.symm

/-- Removing the axes that were inserted gives the tensor back. -/
theorem squeeze_unsqueeze {x y z : Tensor V} {u s : List ℤ} (hy : unsqueeze x u = some y)
    (hz : squeeze y (some s) = some z) (hset : ∀ a, a ∈ u ↔ a ∈ s) : z = x := by
  obtain ⟨ax, h1, h2, h3⟩ := unsqueeze_some.1 hy
  obtain ⟨bx, g1, g2, g3⟩ := squeeze_some.1 hz
  have hys := retag_shape h3
  rw [hys, insertOnes_length] at g1
  have hab : ∀ a, a ∈ bx ↔ a ∈ ax := by
    intro a
    rw [axes_mem g1, axes_mem h1]
    simp only [hset]
  rw [retag_retag h3, hys, dropFrom_congr hab, dropFrom_insertOnes, retag_self] at g3
  · exact (Option.some.inj g3).symm
  · have := free_add ax _ (axes_lt h1)
    rw [nodup_axes_length h1 h2] at this
    omega

/-- Two lists of axes that are all counted in the same direction. -/
def SameSign (u s : List ℤ) : Prop :=
  (∀ a ∈ u ++ s, 0 ≤ a) ∨ ∀ a ∈ u ++ s, a < 0

theorem normAxis_inj {r : ℕ} {a b : ℤ} {n : ℕ} (ha : normAxis r a = some n)
    (hb : normAxis r b = some n) (h : (0 ≤ a ∧ 0 ≤ b) ∨ (a < 0 ∧ b < 0)) : a = b := by
  unfold normAxis at ha hb
  split at ha <;> split at hb
  · cases ha; simp at hb; omega
  · split at hb <;> first | omega | cases hb
  · split at ha <;> first | omega | cases ha
  · split at ha <;> split at hb
    · cases ha; simp at hb; omega
    · cases hb
    · cases ha
    · cases ha

/-- Axes counted in the same direction denote as many positions as there are different ones. -/
theorem axes_card {r : ℕ} {l : List ℤ} {ax : List ℕ} (h : l.mapM (normAxis r) = some ax)
    (hs : (∀ a ∈ l, 0 ≤ a) ∨ ∀ a ∈ l, a < 0) : ax.toFinset.card = l.toFinset.card := by
  symm
  refine Finset.card_nbij (fun a => (normAxis r a).getD 0) ?_ ?_ ?_
  · intro a ha
    rw [mapM_forall₂] at h
    have ha : a ∈ l := by simpa using ha
    obtain ⟨k, hk⟩ := List.getElem?_of_mem ha
    obtain ⟨b, hb, hab⟩ := forall₂_getElem? h hk
    simp only [hab, Option.getD_some, List.mem_toFinset, Finset.mem_coe]
    exact List.mem_of_getElem? hb
  · intro a ha b hb hab
    have ha : a ∈ l := by simpa using ha
    have hb : b ∈ l := by simpa using hb
    have key : ∀ c ∈ l, ∃ n, normAxis r c = some n := by
      intro c hc
      obtain ⟨k, hk⟩ := List.getElem?_of_mem hc
      obtain ⟨n, -, hn⟩ := forall₂_getElem? (mapM_forall₂.1 h) hk
      exact ⟨n, hn⟩
    obtain ⟨n, hn⟩ := key a ha
    obtain ⟨m, hm⟩ := key b hb
    simp only [hn, hm, Option.getD_some] at hab
    subst hab
    refine normAxis_inj hn hm ?_
    rcases hs with hs | hs
    · exact .inl ⟨hs a ha, hs b hb⟩
    · exact .inr ⟨hs a ha, hs b hb⟩
  · intro n hn
    have hn : n ∈ ax := by simpa using hn
    obtain ⟨a, ha, han⟩ := (axes_mem h n).1 hn
    exact ⟨a, by simpa using ha, by simp [han]⟩

/-- Inserting the axes that were removed gives the tensor back. -/
theorem unsqueeze_squeeze {x y z : Tensor V} {u s : List ℤ} (hy : squeeze x (some s) = some y)
    (hz : unsqueeze y u = some z) (hset : ∀ a, a ∈ u ↔ a ∈ s) (hsign : SameSign u s) : z = x := by
  obtain ⟨ax, h1, h2, h3⟩ := squeeze_some.1 hy
  obtain ⟨bx, g1, g2, g3⟩ := unsqueeze_some.1 hz
  have hys := retag_shape h3
  have hs' : (∀ a ∈ s, 0 ≤ a) ∨ ∀ a ∈ s, a < 0 := by
    rcases hsign with h | h
    · exact .inl fun a ha => h a (by simp [ha])
    · exact .inr fun a ha => h a (by simp [ha])
  have hu' : (∀ a ∈ u, 0 ≤ a) ∨ ∀ a ∈ u, a < 0 := by
    rcases hsign with h | h
    · exact .inl fun a ha => h a (by simp [ha])
    · exact .inr fun a ha => h a (by simp [ha])
  have hc : s.toFinset = u.toFinset := by
    ext a; simp [hset]
  have hlen : y.shape.length + u.length = x.shape.length := by
    have e1 := free_add ax _ (axes_lt h1)
    rw [axes_card h1 hs', hc, ← axes_card g1 hu', nodup_axes_length g1 g2] at e1
    rw [hys, dropFrom_length]
    exact e1
  rw [hlen] at g1 g3
  have hab : ∀ a, a ∈ bx ↔ a ∈ ax := by
    intro a
    rw [axes_mem g1, axes_mem h1]
    simp only [hset]
  rw [retag_retag h3, hys, insertOnes_congr hab, insertOnes_dropFrom, retag_self] at g3
  · exact (Option.some.inj g3).symm
  · intro j hj hm
    exact h2 j (by simpa using hm)

end Verif.Rewrite
