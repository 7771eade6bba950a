import Verif.Einsum.ListLemmas
import Mathlib.Algebra.BigOperators.Ring.Finset
import Mathlib.Algebra.BigOperators.Intervals

/-! # Sums over the values of subscripts -/

namespace Verif.Einsum

open Verif.Rewrite Finset

variable {V : Type} [CommRing V] {D : Char → ℕ}

/-- The sum over all values of some subscripts. -/
def sumVars (D : Char → ℕ) : List Char → ((Char → ℕ) → V) → (Char → ℕ) → V
  | [], F, σ => F σ
  | x :: xs, F, σ => ∑ v ∈ range (D x), sumVars D xs F (Function.update σ x v)

/-- `τ` differs from `σ` only at the subscripts `xs`, and is in range there. -/
def Differ (D : Char → ℕ) (xs : List Char) (σ τ : Char → ℕ) : Prop :=
  (∀ y, y ∉ xs → τ y = σ y) ∧ ∀ y ∈ xs, τ y < D y

theorem sumVars_congr : ∀ {xs : List Char} {F G : (Char → ℕ) → V} {σ : Char → ℕ},
    (∀ τ, Differ D xs σ τ → F τ = G τ) → sumVars D xs F σ = sumVars D xs G σ
  | [], _, _, σ, h => h σ ⟨fun _ _ => rfl, fun _ h => by cases h⟩
  | x :: xs, F, G, σ, h => by
    unfold sumVars
    refine sum_congr rfl fun v hv => ?_
    refine sumVars_congr fun τ hτ => h τ ⟨fun y hy => ?_, fun y hy => ?_⟩
    · rw [List.mem_cons, not_or] at hy
      rw [hτ.1 y hy.2, Function.update_of_ne hy.1]
    · by_cases hyx : y ∈ xs
      · exact hτ.2 y hyx
      · rcases List.mem_cons.1 hy with rfl | h'
        · rw [hτ.1 y hyx, Function.update_self]
          exact mem_range.1 hv
        · exact absurd h' hyx

theorem sumVars_mul_const (c : V) : ∀ (xs : List Char) (F : (Char → ℕ) → V) (σ : Char → ℕ),
    sumVars D xs (fun τ => F τ * c) σ = sumVars D xs F σ * c
  | [], _, _ => rfl
  | x :: xs, F, σ => by
    unfold sumVars
    rw [sum_mul]
    exact sum_congr rfl fun v _ => sumVars_mul_const c xs F _

/-- A factor that does not depend on the subscripts can be taken out. -/
theorem sumVars_mul {xs : List Char} {F G : (Char → ℕ) → V} {σ : Char → ℕ}
    (h : ∀ τ, Differ D xs σ τ → G τ = G σ) : sumVars D xs (fun τ => F τ * G τ) σ = sumVars D xs F σ * G σ := by
  rw [← sumVars_mul_const]
  exact sumVars_congr fun τ hτ => by rw [h τ hτ]

theorem sumVars_append : ∀ (xs ys : List Char) (F : (Char → ℕ) → V) (σ : Char → ℕ),
    sumVars D (xs ++ ys) F σ = sumVars D xs (sumVars D ys F) σ
  | [], _, _, _ => rfl
  | x :: xs, ys, F, σ => by
    rw [List.cons_append, sumVars, sumVars]
    exact sum_congr rfl fun v _ => sumVars_append xs ys F _

theorem sumVars_perm {xs ys : List Char} (h : xs.Perm ys) : ∀ (F : (Char → ℕ) → V) (σ : Char → ℕ),
    sumVars D xs F σ = sumVars D ys F σ := by
  induction h with
  | nil => intros; rfl
  | cons x _ ih =>
    intro F σ
    unfold sumVars
    exact sum_congr rfl fun v _ => ih F _
  | swap x y l =>
    intro F σ
    by_cases hxy : x = y
    · rw [hxy]
    · simp only [sumVars]
      rw [sum_comm]
      refine sum_congr rfl fun v _ => sum_congr rfl fun w _ => ?_
      rw [Function.update_comm hxy]
  | trans _ _ ih1 ih2 => intro F σ; rw [ih1, ih2]

/-- Subscripts of extent 1 that do not matter. -/
theorem sumVars_ones : ∀ {xs : List Char} {F : (Char → ℕ) → V} {σ : Char → ℕ}, (∀ x ∈ xs, D x = 1) →
    (∀ τ, (∀ y, y ∉ xs → τ y = σ y) → F τ = F σ) → sumVars D xs F σ = F σ
  | [], _, _, _, _ => rfl
  | x :: xs, F, σ, h1, h2 => by
    unfold sumVars
    rw [h1 x (by simp), sum_range_one]
    have h3 : ∀ y, y ∉ x :: xs → Function.update σ x 0 y = σ y := fun y hy => by
      rw [List.mem_cons, not_or] at hy
      exact Function.update_of_ne hy.1 _ _
    rw [sumVars_ones (fun y hy => h1 y (by simp [hy]))]
    · exact h2 _ h3
    · intro τ hτ
      rw [h2 _ h3]
      refine h2 _ fun y hy => ?_
      rw [hτ y fun h => hy (by simp [h]), h3 y hy]

theorem sum_list_range (n : ℕ) (g : ℕ → V) : ((List.range n).map g).sum = ∑ i ∈ range n, g i := by
  induction n with
  | zero => rfl
  | succ n ih => rw [List.range_succ, List.map_append, List.sum_append, ih, sum_range_succ]; simp

theorem sum_flatMap {α β : Type} (l : List α) (g : α → List β) (f : β → V) :
    ((l.flatMap g).map f).sum = (l.map fun i => ((g i).map f).sum).sum := by
  induction l with
  | nil => rfl
  | cons a l ih => simp [List.flatMap_cons, ih]

theorem filter_flatMap' {α β : Type} (l : List α) (g : α → List β) (p : β → Bool) :
    (l.flatMap g).filter p = l.flatMap fun i => (g i).filter p := by
  induction l with
  | nil => rfl
  | cons a l ih => simp [List.flatMap_cons, ih]

/-- A sum over the indices of a shape that satisfy a condition, by the first coordinate. -/
theorem sum_indices_cons (d : ℕ) (s : List ℕ) (p : List ℕ → Bool) (f : List ℕ → V) :
    (((allIndices (d :: s)).filter p).map f).sum =
      ∑ i ∈ range d, (((allIndices s).filter fun q => p (i :: q)).map fun q => f (i :: q)).sum := by
  rw [allIndices, filter_flatMap', sum_flatMap, sum_list_range]
  refine sum_congr rfl fun i _ => ?_
  rw [List.filter_map, List.map_map]
  rfl

/-- The entries of a list whose position is in `ax`. -/
def pickFrom {α : Type} (ax : List ℕ) (k : ℕ) (l : List α) : List α :=
  ((l.zipIdx k).filter fun p => p.2 ∈ ax).map Prod.fst

theorem pickFrom_cons {α : Type} (ax : List ℕ) (k : ℕ) (a : α) (s : List α) :
    pickFrom ax k (a :: s) = if k ∈ ax then a :: pickFrom ax (k + 1) s else pickFrom ax (k + 1) s := by
  unfold pickFrom
  rw [List.zipIdx_cons, List.filter_cons]
  by_cases h : k ∈ ax <;> simp [h]

theorem pickFrom_sublist {α : Type} (ax : List ℕ) : ∀ (k : ℕ) (l : List α), (pickFrom ax k l).Sublist l
  | _, [] => List.Sublist.refl _
  | k, a :: l => by
    rw [pickFrom_cons]
    split
    · exact (pickFrom_sublist ax (k + 1) l).cons₂ a
    · exact (pickFrom_sublist ax (k + 1) l).cons a

theorem index_congr {s : List ℕ} : ∀ {subs : List Char} {σ τ : Char → ℕ}, (∀ x ∈ subs, σ x = τ x) →
    index s subs σ = index s subs τ := by
  unfold index
  induction s with
  | nil => intros; simp
  | cons d s ih =>
    intro subs σ τ h
    cases subs with
    | nil => simp
    | cons x subs =>
      rw [List.zipWith_cons_cons, List.zipWith_cons_cons, ih fun y hy => h y (by simp [hy]), h x (by simp)]

theorem index_length {s : List ℕ} {subs : List Char} (σ : Char → ℕ) (h : subs.length = s.length) :
    (index s subs σ).length = s.length := by
  unfold index
  simp [h]

/-- All axes have an extent that their subscripts allow. -/
def Dims (D : Char → ℕ) (s : List ℕ) (subs : List Char) : Prop :=
  List.Forall₂ (fun d x => d = 1 ∨ d = D x) s subs

theorem index_inBounds {s : List ℕ} {subs : List Char} {σ : Char → ℕ} (h : Dims D s subs) (hσ : ∀ x ∈ subs, σ x < D x) :
    InBounds s (index s subs σ) := by
  unfold index
  induction h with
  | nil => simp
  | cons hd _ ih =>
    rename_i d x s subs _
    rw [List.zipWith_cons_cons, inBounds_cons]
    refine ⟨?_, ih fun y hy => hσ y (by simp [hy])⟩
    rcases hd with hd | hd
    · rw [if_pos hd, hd]; exact Nat.one_pos
    · split
      · omega
      · rw [hd]; exact hσ x (by simp)

/-- Summing over axes is summing over their subscripts. -/
theorem sum_axes (R : List ℕ) : ∀ {s : List ℕ} {subs : List Char} {k : ℕ} {σ : Char → ℕ} (f : List ℕ → V), Dims D s subs →
    subs.Nodup → (∀ x ∈ subs, σ x < D x) → (∀ q ∈ (s.zip subs).zipIdx k, q.2 ∈ R → q.1.1 = D q.1.2) →
    (((allIndices s).filter fun p => dropFrom R k p = index (dropFrom R k s) (dropFrom R k subs) σ).map f).sum =
      sumVars D (pickFrom R k subs) (fun τ => f (index s subs τ)) σ := by
  intro s subs k σ f hd
  induction hd generalizing k σ f with
  | nil =>
    intro _ _ _
    have h0 : index (dropFrom R k []) (dropFrom R k []) σ = [] := rfl
    rw [h0]
    simp [allIndices, dropFrom, pickFrom, sumVars, index]
  | cons hd1 hds ih =>
    rename_i d x s subs
    intro hn hσ hR
    obtain ⟨hn1, hn2⟩ := List.nodup_cons.1 hn
    have hR' : ∀ q ∈ (s.zip subs).zipIdx (k + 1), q.2 ∈ R → q.1.1 = D q.1.2 := fun q hq => hR q (by
      rw [List.zip_cons_cons, List.zipIdx_cons]; exact List.mem_cons_of_mem _ hq)
    have hσ' : ∀ y ∈ subs, σ y < D y := fun y hy => hσ y (by simp [hy])
    rw [sum_indices_cons]
    by_cases hk : k ∈ R
    · have hdx : d = D x := hR ((d, x), k) (by simp [List.zipIdx_cons]) hk
      rw [pickFrom_cons, if_pos hk, sumVars, ← hdx]
      refine sum_congr rfl fun i hi => ?_
      have hi' : i < D x := hdx ▸ mem_range.1 hi
      have hup : ∀ y ∈ subs, Function.update σ x i y = σ y := fun y hy =>
        Function.update_of_ne (fun (h : y = x) => hn1 (h ▸ hy)) _ _
      have h1 := ih (k := k + 1) (σ := Function.update σ x i) (fun q => f (i :: q)) hn2
        (fun y hy => by rw [hup y hy]; exact hσ' y hy) hR'
      have h2 : index (dropFrom R (k + 1) s) (dropFrom R (k + 1) subs) (Function.update σ x i) =
          index (dropFrom R (k + 1) s) (dropFrom R (k + 1) subs) σ :=
        index_congr fun y hy => hup y ((dropFrom_sublist R (k + 1) subs).subset hy)
      rw [h2] at h1
      have h3 : (fun q => decide (dropFrom R k (i :: q) = index (dropFrom R k (d :: s)) (dropFrom R k (x :: subs)) σ)) =
          fun q => decide (dropFrom R (k + 1) q = index (dropFrom R (k + 1) s) (dropFrom R (k + 1) subs) σ) := by
        funext q
        rw [dropFrom_cons, dropFrom_cons, dropFrom_cons, if_pos hk, if_pos hk, if_pos hk]
      rw [h3, h1]
      refine sumVars_congr fun τ hτ => ?_
      have hτx : τ x = i := by
        rw [hτ.1 x fun h => hn1 ((pickFrom_sublist R (k + 1) subs).subset h), Function.update_self]
      unfold index
      rw [List.zipWith_cons_cons]
      congr 2
      split
      · omega
      · exact hτx.symm
    · rw [pickFrom_cons, if_neg hk]
      have h3 : ∀ i, (fun q => decide (dropFrom R k (i :: q) = index (dropFrom R k (d :: s)) (dropFrom R k (x :: subs)) σ)) =
          fun q => decide (i = (if d = 1 then 0 else σ x) ∧
            dropFrom R (k + 1) q = index (dropFrom R (k + 1) s) (dropFrom R (k + 1) subs) σ) := by
        intro i
        funext q
        rw [dropFrom_cons, dropFrom_cons, dropFrom_cons, if_neg hk, if_neg hk, if_neg hk]
        unfold index
        rw [List.zipWith_cons_cons, decide_eq_decide, List.cons.injEq]
      simp only [h3]
      have hin : (if d = 1 then 0 else σ x) ∈ range d := by
        rw [mem_range]
        rcases hd1 with h | h
        · rw [if_pos h, h]; exact Nat.one_pos
        · split
          · omega
          · rw [h]; exact hσ x (by simp)
      rw [sum_eq_single_of_mem _ hin]
      · have h1 := ih (k := k + 1) (σ := σ) (fun q => f ((if d = 1 then 0 else σ x) :: q)) hn2 hσ' hR'
        simp only [true_and]
        rw [h1]
        refine sumVars_congr fun τ hτ => ?_
        have hτx : τ x = σ x := hτ.1 x fun h => hn1 ((pickFrom_sublist R (k + 1) subs).subset h)
        unfold index
        rw [List.zipWith_cons_cons, hτx]
      · intro i _ hne
        simp [hne]

/-- The sum over all indices of a shape is the sum over subscripts. -/
theorem sum_all : ∀ {subs : List Char} {σ : Char → ℕ} (f : List ℕ → V), subs.Nodup →
    ((allIndices (subs.map D)).map f).sum = sumVars D subs (fun τ => f (subs.map τ)) σ
  | [], σ, f, _ => by simp [allIndices, sumVars]
  | x :: subs, σ, f, hn => by
    obtain ⟨hn1, hn2⟩ := List.nodup_cons.1 hn
    have := sum_indices_cons (D x) (subs.map D) (fun _ => true) f
    rw [List.filter_true] at this
    rw [List.map_cons, this, sumVars]
    refine sum_congr rfl fun i _ => ?_
    rw [List.filter_true, sum_all (σ := Function.update σ x i) (fun q => f (i :: q)) hn2]
    refine sumVars_congr fun τ hτ => ?_
    rw [List.map_cons, hτ.1 x hn1, Function.update_self]

end Verif.Einsum
