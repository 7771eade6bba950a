import Verif.Einsum.Model
import Verif.Rewrite.SqueezeSem
import Verif.Rewrite.TransposeSem

/-! # Lists of axes -/

namespace Verif.Einsum

open Verif.Rewrite

theorem foldr_erase_cons {α : Type} (x : α) (l : List α) : ∀ {ax : List ℕ}, (∀ a ∈ ax, 1 ≤ a) →
    ax.foldr (fun a l => l.eraseIdx a) (x :: l) = x :: (ax.map (· - 1)).foldr (fun a l => l.eraseIdx a) l
  | [], _ => rfl
  | a :: ax, h => by
    rw [List.foldr_cons, foldr_erase_cons x l fun b hb => h b (by simp [hb]), List.map_cons, List.foldr_cons]
    have h1 := h a (by simp)
    obtain ⟨b, rfl⟩ : ∃ b, a = b + 1 := ⟨a - 1, by omega⟩
    rw [List.eraseIdx_cons_succ, Nat.add_sub_cancel]

theorem eraseAxes_shift {α : Type} : ∀ (l : List α) (k : ℕ) (ax : List ℕ), ax.Pairwise (· < ·) → (∀ a ∈ ax, k ≤ a) →
    eraseAxes (ax.map (· - k)) l = dropFrom ax k l
  | [], k, ax, _, _ => by
    unfold eraseAxes
    have : ∀ bx : List ℕ, bx.foldr (fun a l => l.eraseIdx a) ([] : List α) = [] := by
      intro bx
      induction bx with
      | nil => rfl
      | cons b bx ih => rw [List.foldr_cons, ih]; rfl
    rw [this]
    rfl
  | x :: l, k, ax, hs, hk => by
    rw [dropFrom_cons]
    have hmap : ∀ bx : List ℕ, (bx.map (· - k)).map (· - 1) = bx.map (· - (k + 1)) := by
      intro bx
      rw [List.map_map]
      exact List.map_congr_left fun a _ => by simp only [Function.comp]; omega
    by_cases hmem : k ∈ ax
    · rw [if_pos hmem]
      cases ax with
      | nil => cases hmem
      | cons b bx =>
        have hb : b = k := by
          rcases List.mem_cons.1 hmem with h | h
          · exact h.symm
          · have := (List.pairwise_cons.1 hs).1 k h
            have := hk b (by simp)
            omega
        subst hb
        have h1 : ∀ a ∈ bx, b + 1 ≤ a := fun a ha => (List.pairwise_cons.1 hs).1 a ha
        unfold eraseAxes
        rw [List.map_cons, List.foldr_cons, foldr_erase_cons x l (by
          intro a ha
          obtain ⟨c, hc, rfl⟩ := List.mem_map.1 ha
          have := h1 c hc
          omega), Nat.sub_self, List.eraseIdx_cons_zero, hmap]
        rw [show List.foldr (fun a l => l.eraseIdx a) l (bx.map (· - (b + 1))) = eraseAxes (bx.map (· - (b + 1))) l from rfl,
          eraseAxes_shift l (b + 1) bx (List.pairwise_cons.1 hs).2 h1]
        unfold dropFrom
        congr 1
        apply List.filter_congr
        intro p hp
        have := List.le_snd_of_mem_zipIdx hp
        simp only [List.mem_cons, not_or, decide_eq_decide]
        constructor
        · intro h; exact ⟨by omega, h⟩
        · intro h; exact h.2
    · rw [if_neg hmem]
      have h1 : ∀ a ∈ ax, k + 1 ≤ a := fun a ha => by
        have := hk a ha
        rcases Nat.eq_or_lt_of_le this with h | h
        · exact absurd (h ▸ ha) hmem
        · exact h
      unfold eraseAxes
      rw [foldr_erase_cons x l (by
          intro a ha
          obtain ⟨c, hc, rfl⟩ := List.mem_map.1 ha
          have := h1 c hc
          omega), hmap]
      rw [show List.foldr (fun a l => l.eraseIdx a) l (ax.map (· - (k + 1))) = eraseAxes (ax.map (· - (k + 1))) l from rfl,
        eraseAxes_shift l (k + 1) ax hs h1]

theorem eraseAxes_eq {α : Type} {ax : List ℕ} (h : ax.Pairwise (· < ·)) (l : List α) : eraseAxes ax l = dropFrom ax 0 l := by
  have := eraseAxes_shift l 0 ax h fun _ _ => Nat.zero_le _
  simpa using this

theorem lits_axes {r : ℕ} : ∀ {ax : List ℕ}, (∀ a ∈ ax, a < r) → (lits ax).mapM (normAxis r) = some ax
  | [], _ => rfl
  | a :: ax, h => by
    have h1 : normAxis r (a : ℤ) = some a := by
      unfold normAxis
      rw [if_pos ⟨by omega, by exact_mod_cast h a (by simp)⟩]
      rfl
    have h2 := lits_axes fun b hb => h b (List.mem_cons_of_mem _ hb)
    unfold lits at h2 ⊢
    rw [List.map_cons, List.mapM_cons, h1, h2]
    rfl

theorem filter_sorted (n : ℕ) (p : ℕ → Bool) : ((List.range n).filter p).Pairwise (· < ·) :=
  List.Pairwise.filter _ List.pairwise_lt_range

theorem foldl_insert_cons (x : ℕ) (l : List ℕ) : ∀ {ax : List ℕ}, (∀ a ∈ ax, 1 ≤ a) →
    ax.foldl (fun s a => s.insertIdx a 1) (x :: l) = x :: (ax.map (· - 1)).foldl (fun s a => s.insertIdx a 1) l := by
  intro ax
  induction ax generalizing l with
  | nil => intro _; rfl
  | cons a ax ih =>
    intro h
    have h1 := h a (by simp)
    obtain ⟨b, rfl⟩ : ∃ b, a = b + 1 := ⟨a - 1, by omega⟩
    rw [List.foldl_cons, List.insertIdx_succ_cons, ih _ fun b hb => h b (by simp [hb]), List.map_cons, List.foldl_cons,
      Nat.add_sub_cancel]

theorem expandDims_shift : ∀ (n : ℕ) (s : List ℕ) (k : ℕ) (ax : List ℕ), ax.Pairwise (· < ·) →
    (∀ a ∈ ax, k ≤ a ∧ a < k + n) → s.length + ax.length = n →
    expandDims s (ax.map (· - k)) = insertOnes ax k n s
  | 0, s, k, ax, hs, hk, hn => by
    have h1 : s = [] := List.length_eq_zero_iff.1 (by omega)
    have h2 : ax = [] := List.length_eq_zero_iff.1 (by omega)
    subst h1 h2
    rfl
  | n + 1, s, k, ax, hs, hk, hn => by
    have hmap : ∀ bx : List ℕ, (bx.map (· - k)).map (· - 1) = bx.map (· - (k + 1)) := by
      intro bx
      rw [List.map_map]
      exact List.map_congr_left fun a _ => by simp only [Function.comp]; omega
    unfold insertOnes
    by_cases hmem : k ∈ ax
    · rw [if_pos hmem]
      cases ax with
      | nil => cases hmem
      | cons b bx =>
        have hb : b = k := by
          rcases List.mem_cons.1 hmem with h | h
          · exact h.symm
          · have := (List.pairwise_cons.1 hs).1 k h
            have := (hk b (by simp)).1
            omega
        subst hb
        have h1 : ∀ a ∈ bx, b + 1 ≤ a := fun a ha => (List.pairwise_cons.1 hs).1 a ha
        unfold expandDims
        rw [List.map_cons, List.foldl_cons, Nat.sub_self, List.insertIdx_zero, foldl_insert_cons 1 s (by
          intro a ha
          obtain ⟨c, hc, rfl⟩ := List.mem_map.1 ha
          have := h1 c hc
          omega), hmap]
        rw [show List.foldl (fun s a => s.insertIdx a 1) s (bx.map (· - (b + 1))) = expandDims s (bx.map (· - (b + 1)))
          from rfl, expandDims_shift n s (b + 1) bx (List.pairwise_cons.1 hs).2 (fun a ha =>
            ⟨h1 a ha, by have := (hk a (by simp [ha])).2; omega⟩) (by simp at hn; omega)]
        congr 1
        have gen : ∀ (n j : ℕ) (s : List ℕ), b < j → insertOnes bx j n s = insertOnes (b :: bx) j n s := by
          intro n
          induction n with
          | zero => intros; rfl
          | succ n ih =>
            intro j s hj
            unfold insertOnes
            have : (j ∈ b :: bx) ↔ j ∈ bx := by
              rw [List.mem_cons]
              constructor
              · rintro (h | h)
                · omega
                · exact h
              · exact .inr
            by_cases hjm : j ∈ bx
            · rw [if_pos hjm, if_pos (this.2 hjm), ih _ _ (by omega)]
            · rw [if_neg hjm, if_neg (fun h => hjm (this.1 h))]
              cases s with
              | nil => simp only; rw [ih _ _ (by omega)]
              | cons d s => simp only; rw [ih _ _ (by omega)]
        exact gen n (b + 1) s (by omega)
    · rw [if_neg hmem]
      have h1 : ∀ a ∈ ax, k + 1 ≤ a := fun a ha => by
        have := (hk a ha).1
        rcases Nat.eq_or_lt_of_le this with h | h
        · exact absurd (h ▸ ha) hmem
        · exact h
      cases s with
      | nil =>
        exfalso
        have hsub : ax.length ≤ n := by
          have hnd : ax.Nodup := hs.imp fun h => by omega
          have : ax ⊆ List.range' (k + 1) n := fun a ha => by
            rw [List.mem_range'_1]
            exact ⟨h1 a ha, by have := (hk a ha).2; omega⟩
          have := (List.subperm_of_subset hnd this).length_le
          simpa using this
        simp at hn
        omega
      | cons d s =>
        unfold expandDims
        simp only
        rw [foldl_insert_cons d s (by
          intro a ha
          obtain ⟨c, hc, rfl⟩ := List.mem_map.1 ha
          have := h1 c hc
          omega), hmap]
        rw [show List.foldl (fun s a => s.insertIdx a 1) s (ax.map (· - (k + 1))) = expandDims s (ax.map (· - (k + 1)))
          from rfl, expandDims_shift n s (k + 1) ax hs (fun a ha =>
            ⟨h1 a ha, by have := (hk a ha).2; omega⟩) (by simp at hn; omega)]

theorem expandDims_eq {ax s : List ℕ} (h : ax.Pairwise (· < ·)) (hk : ∀ a ∈ ax, a < s.length + ax.length) :
    expandDims s ax = insertOnes ax 0 (s.length + ax.length) s := by
  have := expandDims_shift (s.length + ax.length) s 0 ax h (fun a ha => ⟨Nat.zero_le _, by simpa using hk a ha⟩) rfl
  simpa using this

/-- Leaving out positions commutes with combining two lists. -/
theorem dropFrom_zipWith {α β γ : Type} (f : α → β → γ) (ax : List ℕ) : ∀ (k : ℕ) (s : List α) (t : List β),
    s.length = t.length → dropFrom ax k (List.zipWith f s t) = List.zipWith f (dropFrom ax k s) (dropFrom ax k t)
  | _, [], [], _ => rfl
  | k, a :: s, b :: t, h => by
    rw [List.zipWith_cons_cons, dropFrom_cons, dropFrom_cons, dropFrom_cons,
      dropFrom_zipWith f ax (k + 1) s t (by simpa using h)]
    split <;> simp

theorem mem_dropFrom {α : Type} {ax : List ℕ} {x : α} : ∀ {k : ℕ} {l : List α}, x ∈ dropFrom ax k l ↔
    ∃ i, ∃ _ : i < l.length, k + i ∉ ax ∧ l[i] = x
  | k, [] => by simp [dropFrom]
  | k, a :: l => by
    rw [dropFrom_cons]
    constructor
    · intro h
      split at h
      · obtain ⟨i, hi, h1, h2⟩ := mem_dropFrom.1 h
        exact ⟨i + 1, by simpa using hi, by rw [show k + (i + 1) = k + 1 + i by omega]; exact h1, by simpa using h2⟩
      · rename_i hk
        rcases List.mem_cons.1 h with h | h
        · exact ⟨0, by simp, by simpa using hk, by simp [h]⟩
        · obtain ⟨i, hi, h1, h2⟩ := mem_dropFrom.1 h
          exact ⟨i + 1, by simpa using hi, by rw [show k + (i + 1) = k + 1 + i by omega]; exact h1, by simpa using h2⟩
    · rintro ⟨i, hi, h1, h2⟩
      cases i with
      | zero =>
        rw [if_neg (by simpa using h1)]
        simp at h2
        simp [h2]
      | succ i =>
        have : x ∈ dropFrom ax (k + 1) l := mem_dropFrom.2 ⟨i, by simpa using hi,
          by rw [show k + 1 + i = k + (i + 1) by omega]; exact h1, by simpa using h2⟩
        split
        · exact this
        · exact List.mem_cons_of_mem _ this

theorem dropFrom_sublist {α : Type} (ax : List ℕ) : ∀ (k : ℕ) (l : List α), (dropFrom ax k l).Sublist l
  | _, [] => List.Sublist.refl _
  | k, a :: l => by
    rw [dropFrom_cons]
    split
    · exact (dropFrom_sublist ax (k + 1) l).cons a
    · exact (dropFrom_sublist ax (k + 1) l).cons₂ a

/-- Leaving out the positions where a predicate fails is filtering. -/
theorem dropFrom_filter {α : Type} (p : α → Bool) (d : α) : ∀ (k : ℕ) (l : List α),
    dropFrom ((List.range' k l.length).filter fun a => p (l.getD (a - k) d)) k l = l.filter fun x => !p x
  | _, [] => rfl
  | k, a :: l => by
    have h1 : ∀ b, (b ∈ (List.range' k (a :: l).length).filter fun c => p ((a :: l).getD (c - k) d)) ↔
        (b = k ∧ p a) ∨ (b ∈ (List.range' (k + 1) l.length).filter fun c => p (l.getD (c - (k + 1)) d)) := by
      intro b
      simp only [List.mem_filter, List.mem_range'_1, List.length_cons]
      constructor
      · rintro ⟨⟨h1, h2⟩, h3⟩
        rcases Nat.eq_or_lt_of_le h1 with h | h
        · subst h; left; simpa using h3
        · right
          refine ⟨⟨h, by omega⟩, ?_⟩
          rw [show b - k = b - (k + 1) + 1 by omega, List.getD_cons_succ] at h3
          exact h3
      · rintro (⟨rfl, h⟩ | ⟨⟨h1, h2⟩, h3⟩)
        · exact ⟨⟨le_refl _, by omega⟩, by simpa using h⟩
        · refine ⟨⟨by omega, by omega⟩, ?_⟩
          rw [show b - k = b - (k + 1) + 1 by omega, List.getD_cons_succ]
          exact h3
    rw [dropFrom_cons, List.filter_cons]
    have h2 : dropFrom ((List.range' k (a :: l).length).filter fun c => p ((a :: l).getD (c - k) d)) (k + 1) l =
        l.filter fun x => !p x := by
      rw [← dropFrom_filter p d (k + 1) l]
      unfold dropFrom
      congr 1
      apply List.filter_congr
      intro q hq
      have := List.le_snd_of_mem_zipIdx hq
      rw [decide_eq_decide, not_iff_not, h1]
      constructor
      · rintro (h | h)
        · omega
        · exact h
      · exact .inr
    rw [h2]
    by_cases hp : p a
    · rw [if_pos ((h1 k).2 (.inl ⟨rfl, hp⟩))]
      simp [hp]
    · rw [if_neg]
      · simp [hp]
      · rw [h1]
        rintro (h | h)
        · exact hp h.2
        · simp only [List.mem_filter, List.mem_range'_1] at h
          omega

end Verif.Einsum
