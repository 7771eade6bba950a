import Verif.Runtime.SliceModel
import Verif.Runtime.TopKLemmas
import Verif.Runtime.TensorLemmas

namespace Verif.Runtime.Sort

theorem getElem_toList (n : Nat) (m : Mem) (i : Nat) (h : i < (toList n m).length) :
    (toList n m)[i] = m i := by simp [toList]

theorem length_toList (n : Nat) (m : Mem) : (toList n m).length = n := by simp [toList]

theorem toList_nodup_iff (n : Nat) (m : Mem) : (toList n m).Nodup ↔
    ∀ i j : Int, 0 ≤ i → i < n → 0 ≤ j → j < n → m i = m j → i = j := by
  rw [List.nodup_iff_injective_getElem]
  constructor
  · intro h i j i1 i2 j1 j2 he
    have hi : i.toNat < (toList n m).length := by rw [length_toList]; omega
    have hj : j.toNat < (toList n m).length := by rw [length_toList]; omega
    have e1 : ((i.toNat : Nat) : Int) = i := by omega
    have e2 : ((j.toNat : Nat) : Int) = j := by omega
    have := @h ⟨i.toNat, hi⟩ ⟨j.toNat, hj⟩ (by
      simp only [getElem_toList, e1, e2]; exact he)
    simp only [Fin.mk.injEq] at this
    omega
  · intro h ⟨i, hi⟩ ⟨j, hj⟩ he
    simp only [getElem_toList] at he
    rw [length_toList] at hi hj
    have := h i j (by omega) (by omega) (by omega) (by omega) he
    simp only [Fin.mk.injEq]; omega

theorem toList_pairwise (n : Nat) (m : Mem) (R : Nat → Nat → Prop) :
    (toList n m).Pairwise R ↔ ∀ i j : Int, 0 ≤ i → i < j → j < n → R (m i) (m j) := by
  rw [List.pairwise_iff_getElem]
  constructor
  · intro h i j i1 i2 j1
    have hi : i.toNat < (toList n m).length := by rw [length_toList]; omega
    have hj : j.toNat < (toList n m).length := by rw [length_toList]; omega
    have e1 : ((i.toNat : Nat) : Int) = i := by omega
    have e2 : ((j.toNat : Nat) : Int) = j := by omega
    have := h i.toNat j.toNat hi hj (by omega)
    simpa only [getElem_toList, e1, e2] using this
  · intro h i j hi hj hij
    rw [length_toList] at hi hj
    simp only [getElem_toList]
    exact h i j (by omega) (by omega) (by omega)

theorem cmp_lt_iff_le {α : Type} [LinearOrder α] (asc : Bool) (v : Nat → α) (x y : Nat) :
    cmp asc v x y < 0 ↔ cmp asc v x y ≤ 0 := by
  unfold cmp
  by_cases g : (if asc then v x < v y else v x > v y) ∨ (v x = v y ∧ x < y)
  · rw [if_pos g]; decide
  · rw [if_neg g]; decide

theorem customSort_contract (rand : Nat → Nat) : SortContract (customSort rand) := by
  intro α _ asc v n m hnd
  rw [toList_nodup_iff] at hnd
  obtain ⟨m', h1, h2, h3⟩ := quickSort_spec (cmp_strictTotal asc v) rand n m hnd
  refine ⟨m', by simp [customSort, h1], h2.toList, ?_, ?_⟩
  · rw [toList_pairwise]
    intro i j hi hij hj
    rw [cmp_lt_iff_le]; exact h3 i j hi hij hj
  · intro k hk; exact h2.outside (by omega)

theorem sumProd_dense (outer : List Nat) (n : Nat) (o : List Nat) (h : InBounds outer o) :
    sumProd o (denseStrides (outer ++ [n])).dropLast = rowMajor outer o * n := by
  induction outer generalizing o with
  | nil => simp at h; subst h; simp [sumProd, rowMajor]
  | cons d ds ih =>
    cases o with
    | nil => simp [InBounds] at h
    | cons i is =>
      rw [inBounds_cons] at h
      have e : (denseStrides (d :: ds ++ [n])).dropLast =
          (ds ++ [n]).prod :: (denseStrides (ds ++ [n])).dropLast := by
        rw [List.cons_append, denseStrides, List.dropLast_cons_of_ne_nil]
        intro hh
        have := congrArg List.length hh
        rw [length_denseStrides] at this
        simp at this
      rw [e, sumProd, ih is h.2, rowMajor]
      simp; ring

theorem allIndices_replicate_one (p : Nat) (s : List Nat) :
    allIndices (List.replicate p 1 ++ s) = (allIndices s).map (List.replicate p 0 ++ ·) := by
  induction p with
  | zero => simp
  | succ p ih =>
    rw [List.replicate_succ, List.cons_append, allIndices, ih]
    simp [List.replicate_succ, List.range_succ]

theorem sumProd_zeros (p : Nat) (o s : List Nat) :
    sumProd (List.replicate p 0 ++ o) (List.replicate p 0 ++ s) = sumProd o s := by
  induction p with
  | zero => simp
  | succ p ih => simp [List.replicate_succ, sumProd, ih]

theorem dropLast_append_ne {α : Type} (a b : List α) (h : b ≠ []) :
    (a ++ b).dropLast = a ++ b.dropLast := by
  induction a with
  | nil => rfl
  | cons x xs ih =>
    rw [List.cons_append, List.dropLast_cons_of_ne_nil, ih, List.cons_append]
    simp [h]

theorem sliceOffsets_dense (outer : List Nat) (n : Nat) :
    sliceOffsets (outer ++ [n]) (denseStrides (outer ++ [n])) =
      (List.range outer.prod).map (· * n) := by
  unfold sliceOffsets
  have hne : denseStrides (outer ++ [n]) ≠ [] := by
    intro hh
    have := congrArg List.length hh
    rw [length_denseStrides] at this
    simp at this
  simp only [dropLast_append_ne _ _ hne]
  rw [← List.append_assoc, List.dropLast_concat, allIndices_replicate_one, List.map_map,
    ← map_rowMajor_allIndices, List.map_map]
  apply List.map_congr_left
  intro o ho
  rw [mem_allIndices] at ho
  simp only [Function.comp_apply]
  rw [sumProd_zeros, sumProd_dense outer n o ho]

/-- The windows of a dense tensor do not interfere: after the loop every slice holds what `f`
made of the slice it started from, and everything else is untouched. -/
theorem loop_windows {α : Type} (f : (Nat → α) → Mem → Option Mem) (data : Nat → α) (n : Nat)
    (P : (Nat → α) → Mem → Prop)
    (hP : ∀ v m m', P v m → (∀ k : Int, 0 ≤ k → k < n → m' k = m k) → P v m')
    (rows : Nat) (order : Nat → Nat)
    (hf : ∀ r < rows, ∀ m : Mem, (∀ k : Int, 0 ≤ k → k < n → m k = order (r * n + k.toNat)) →
      ∃ m', f (fun k => data (r * n + k)) m = some m' ∧ P (fun k => data (r * n + k)) m') :
    ∃ order', ((List.range rows).map (· * n)).foldlM (onWindow f data n) order = some order' ∧
      (∀ r < rows, P (fun k => data (r * n + k)) (fun k => order' (r * n + k.toNat))) ∧
      ∀ x, rows * n ≤ x → order' x = order x := by
  induction rows with
  | zero => exact ⟨order, rfl, by simp, by simp⟩
  | succ rows ih =>
    obtain ⟨o1, h1, h2, h3⟩ := ih (fun r hr => hf r (by omega))
    rw [List.range_succ, List.map_append, List.foldlM_append, h1]
    obtain ⟨m', g1, g2⟩ := hf rows (by omega) (fun k => o1 (rows * n + k.toNat)) (by
      intro k hk hk'; exact h3 _ (by omega))
    refine ⟨fun x => if rows * n ≤ x ∧ x < rows * n + n then m' ((x : Int) - (rows * n : Nat))
      else o1 x, ?_, ?_, ?_⟩
    · simp only [List.map_cons, List.map_nil]
      show (List.foldlM (onWindow f data n) o1 [rows * n]) = _
      simp [onWindow, g1]
    · intro r hr
      by_cases hrr : r = rows
      · subst hrr
        refine hP _ m' _ g2 ?_
        intro k hk hk'
        have : r * n ≤ r * n + k.toNat ∧ r * n + k.toNat < r * n + n := by omega
        simp only [if_pos this]
        congr 1; push_cast; omega
      · refine hP _ _ _ (h2 r (by omega)) ?_
        intro k hk hk'
        have h4 : (r + 1) * n ≤ rows * n := Nat.mul_le_mul_right n (by omega)
        rw [Nat.add_mul] at h4
        have : ¬ (rows * n ≤ r * n + k.toNat ∧ r * n + k.toNat < rows * n + n) := by omega
        simp only [if_neg this]
    · intro x hx
      rw [Nat.add_mul] at hx
      have : ¬ (rows * n ≤ x ∧ x < rows * n + n) := by omega
      simp only [if_neg this]
      exact h3 x (by omega)

/-- Loop over the slices of a dense tensor. -/
theorem forEachSlice_dense {α : Type} (f : (Nat → α) → Mem → Option Mem) (data : Nat → α)
    (P : (Nat → α) → Mem → Prop) (outer : List Nat) (n : Nat) (hrank : outer.length ≤ 5)
    (hP : ∀ v m m', P v m → (∀ k : Int, 0 ≤ k → k < n → m' k = m k) → P v m')
    (order : Nat → Nat)
    (hf : ∀ r < outer.prod, ∀ m : Mem,
      (∀ k : Int, 0 ≤ k → k < n → m k = order (r * n + k.toNat)) →
      ∃ m', f (fun k => data (r * n + k)) m = some m' ∧ P (fun k => data (r * n + k)) m') :
    ∃ order', forEachSlice f (outer ++ [n]) (denseStrides (outer ++ [n])) data order = some order' ∧
      (∀ r < outer.prod, P (fun k => data (r * n + k)) (fun k => order' (r * n + k.toNat))) := by
  obtain ⟨o, h1, h2, _⟩ := loop_windows f data n P hP outer.prod order hf
  refine ⟨o, ?_, h2⟩
  unfold forEachSlice
  rw [if_pos (by simp; omega), sliceOffsets_dense]
  simpa using h1

end Verif.Runtime.Sort
