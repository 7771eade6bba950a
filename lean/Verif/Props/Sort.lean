import Verif.Runtime.SliceLemmas

/-!
# C06, C07, C08: sort and TopK
-/

namespace Verif.Props

open Verif Verif.Runtime Verif.Runtime.Sort

/-- Specification: index `x` must come before index `y` in a stable sort. -/
def StableBefore {α : Type} [LinearOrder α] (asc : Bool) (v : Nat → α) (x y : Nat) : Prop :=
  (if asc then v x < v y else v y < v x) ∨ (v x = v y ∧ x < y)

/-- Specification: `l` is the stable sorting permutation of the indices below `n`. -/
def IsStableOrder {α : Type} [LinearOrder α] (asc : Bool) (v : Nat → α) (n : Nat)
    (l : List Nat) : Prop :=
  l.Perm (List.range n) ∧ l.Pairwise (StableBefore asc v)

theorem cmp_neg_iff {α : Type} [LinearOrder α] (asc : Bool) (v : Nat → α) (x y : Nat) :
    cmp asc v x y < 0 ↔ StableBefore asc v x y := by
  rw [cmp_lt_iff_le, cmp_le_iff]; rfl

theorem toList_id (n : Nat) (m : Mem) (h : ∀ k : Int, 0 ≤ k → k < n → m k = k.toNat) :
    toList n m = List.range n := by
  apply List.ext_getElem
  · simp [toList]
  · intro i h1 h2
    rw [getElem_toList, List.getElem_range]
    rw [length_toList] at h1
    rw [h _ (by omega) (by omega)]; simp

/-- C06 for the custom quicksort on one slice: for all values, both directions, every length and
every sequence of random numbers, the identity order becomes the stable sorted order. -/
theorem C06_quicksort_stable {α : Type} [LinearOrder α] (asc : Bool) (v : Nat → α) (n : Nat)
    (rand : Nat → Nat) :
    ∃ m', quickSortCustom (cmp asc v) rand n (fun k => k.toNat) (2 * n + 1) = .done m' ∧
      IsStableOrder asc v n (toList n m') := by
  obtain ⟨m', h1, h2, h3, _⟩ := customSort_contract rand asc v n (fun k => k.toNat)
    (by rw [toList_id n _ (fun _ _ _ => rfl)]; exact List.nodup_range)
  refine ⟨m', ?_, ?_, ?_⟩
  · unfold customSort at h1
    split at h1
    · rename_i m'' hq; rw [hq]; simp at h1; rw [h1]
    · cases h1
  · rw [toList_id n _ (fun _ _ _ => rfl)] at h2; exact h2
  · exact h3.imp fun h => (cmp_neg_iff asc v _ _).1 h

/-- C06 for the API call: on a dense tensor of rank 1 to 6 whose order buffer starts with the
identity on each slice, every slice ends up with its own stable sorted order. The sort function
is any that meets the `qsort_r` contract. -/
theorem C06_tensor_sort {α : Type} [LinearOrder α]
    (sortf : (Nat → Nat → Int) → Nat → Mem → Option Mem) (hs : SortContract sortf)
    (asc : Bool) (outer : List Nat) (n : Nat) (hrank : outer.length ≤ 5) (hn : 0 < n)
    (data : Nat → α) (order : Nat → Nat)
    (hid : ∀ r < outer.prod, ∀ k < n, order (r * n + k) = k) :
    ∃ order', omTensorSort sortf asc (outer ++ [n]) (denseStrides (outer ++ [n])) data order =
        some order' ∧
      ∀ r < outer.prod, IsStableOrder asc (fun k => data (r * n + k)) n
        ((List.range n).map fun k => order' (r * n + k)) := by
  have hl : (outer ++ [n]).getLast?.getD 0 = n := by simp
  unfold omTensorSort
  simp only [hl]
  rw [if_neg (by omega)]
  obtain ⟨o, h1, h2⟩ := forEachSlice_dense (fun v m => sortf (cmp asc v) n m) data
    (fun v m => IsStableOrder asc v n (toList n m)) outer n hrank
    (by
      intro v m m' hm he
      have : toList n m' = toList n m := by
        apply List.map_congr_left
        intro k hk; exact he k (by omega) (by simpa using hk)
      rw [this]; exact hm)
    order
    (by
      intro r hr m hm
      have hm' : ∀ k : Int, 0 ≤ k → k < n → m k = k.toNat := by
        intro k k1 k2; rw [hm k k1 k2, hid r hr _ (by omega)]
      have hid' := toList_id n m hm'
      obtain ⟨m', g1, g2, g3, _⟩ := hs asc (fun k => data (r * n + k)) n m
        (by rw [hid']; exact List.nodup_range)
      rw [hid'] at g2
      exact ⟨m', g1, g2, g3.imp fun h => (cmp_neg_iff asc _ _ _).1 h⟩)
  refine ⟨o, h1, ?_⟩
  intro r hr
  have := h2 r hr
  simpa [toList] using this

/-- The custom quicksort meets the contract, so C06 holds on platforms that use it. -/
theorem C06_custom_meets_contract (rand : Nat → Nat) : SortContract (customSort rand) :=
  customSort_contract rand

/-- The stable order is unique, so all sort functions give the same result. -/
theorem C06_order_unique {α : Type} [LinearOrder α] (asc : Bool) (v : Nat → α) (n : Nat)
    (l l' : List Nat) (h : IsStableOrder asc v n l) (h' : IsStableOrder asc v n l') : l = l' := by
  refine (h.1.trans h'.1.symm).eq_of_pairwise (le := StableBefore asc v) ?_ h.2 h'.2
  intro a b _ _ h1 h2
  unfold StableBefore at h1 h2
  cases asc <;> simp at h1 h2 <;> rcases h1 with h1 | ⟨h1, h1'⟩ <;>
    rcases h2 with h2 | ⟨h2, h2'⟩ <;> first | order | omega

example : IsStableOrder true (fun k => [3, 1, 2, 1].getD k 0) 4 [1, 3, 2, 0] := by
  refine ⟨by decide, ?_⟩
  simp [StableBefore]

/-- C07. No pivot sequence makes the explicit stack overflow (a `fault`), no array access is
out of range, and at most `2n+1` iterations are needed. -/
theorem C07_stack_safe {α : Type} [LinearOrder α] (asc : Bool) (v : Nat → α) (n : Nat)
    (rand : Nat → Nat) (m : Mem) (hnd : (toList n m).Nodup) :
    ∃ m', quickSortCustom (cmp asc v) rand n m (2 * n + 1) = .done m' := by
  rw [toList_nodup_iff] at hnd
  obtain ⟨m', h1, _⟩ := quickSort_spec (cmp_strictTotal asc v) rand n m hnd
  exact ⟨m', h1⟩

/-- The stack bound is the code's: with one slot pair less than `log2(n+1)` levels need, the
model faults, so the theorem is about the real capacity. -/
example : push 2 [(0, 1)] (2, 3) = none ∧ push 4 [(0, 1)] (2, 3) = some [(2, 3), (0, 1)] := by
  decide

/-- C08, specification: `res` is the list of the `k` best indices below `n`, in stable order. -/
def IsTopK {α : Type} [LinearOrder α] (asc : Bool) (v : Nat → α) (n k : Nat)
    (res : List Nat) : Prop :=
  res.length = k ∧ res.Nodup ∧ (∀ x ∈ res, x < n) ∧ res.Pairwise (StableBefore asc v) ∧
    ∀ x ∈ res, ∀ y < n, y ∉ res → StableBefore asc v x y

/-- C08 (full statement, false of the code). -/
def C08_statement : Prop :=
  ∀ (asc : Bool) (v : Nat → Int) (n k threshold : Nat)
    (sortf : (Nat → Nat → Int) → Nat → Mem → Option Mem), SortContract sortf → k ≤ n →
    ∃ m', topK asc v (sortf (cmp asc v)) threshold n k true (fun x => x.toNat) = some m' ∧
      IsTopK asc v n k (toList k m')

/-- Values only: nothing left out is strictly better than something kept. -/
def IsTopKValues {α : Type} [LinearOrder α] (asc : Bool) (v : Nat → α) (n k : Nat)
    (res : List Nat) : Prop :=
  res.length = k ∧ res.Nodup ∧ (∀ x ∈ res, x < n) ∧
    ∀ x ∈ res, ∀ y < n, y ∉ res → if asc then v x ≤ v y else v y ≤ v x

theorem toList_split {n k : Nat} (hk : k ≤ n) (m : Mem) :
    toList n m = toList k m ++ (List.range' k (n - k)).map (fun j : Nat => m j) := by
  obtain ⟨d, rfl⟩ := Nat.exists_eq_add_of_le hk
  simp [toList, List.range_add, List.range'_eq_map_range]

theorem topK_core {α : Type} [LinearOrder α] (asc : Bool) (v : Nat → α)
    (n k threshold : Nat) (sortf : (Nat → Nat → Int) → Nat → Mem → Option Mem)
    (hs : SortContract sortf) (hk : k ≤ n) (sorted : Bool) (m0 : Mem)
    (h0 : ∀ x : Int, 0 ≤ x → x < n → m0 x = x.toNat) :
    ∃ m', topK asc v (sortf (cmp asc v)) threshold n k sorted m0 = some m' ∧
      IsTopKValues asc v n k (toList k m') ∧
      (sorted = true → (toList k m').Pairwise (StableBefore asc v)) := by
  have hinj : ∀ i j : Int, 0 ≤ i → i < n → 0 ≤ j → j < n → m0 i = m0 j → i = j := by
    intro i j i1 i2 j1 j2 h
    rw [h0 i i1 i2, h0 j j1 j2] at h; omega
  unfold topK
  by_cases hz : k = 0 ∨ n = 0
  · have : k = 0 := by omega
    subst this
    refine ⟨m0, by rw [if_pos hz], ?_, ?_⟩ <;> simp [IsTopKValues, toList]
  rw [if_neg hz]
  by_cases ht : k ≥ threshold
  · rw [if_pos ht]
    obtain ⟨m', g1, g2, g3, _⟩ := hs asc v n m0 ((toList_nodup_iff n m0).2 hinj)
    rw [toList_id n m0 h0] at g2
    have hn : toList n m' = toList k m' ++ (List.range' k (n - k)).map (fun j : Nat => m' j) := toList_split hk m'
    have hp : (toList n m').Pairwise (StableBefore asc v) :=
      g3.imp fun h => (cmp_neg_iff asc v _ _).1 h
    have hnd : (toList n m').Nodup := g2.nodup_iff.2 List.nodup_range
    rw [hn] at hp hnd
    rw [List.pairwise_append] at hp
    refine ⟨m', g1, ⟨length_toList k m', (List.nodup_append.1 hnd).1, ?_, ?_⟩, fun _ => hp.1⟩
    · intro x hx
      have : x ∈ toList n m' := by rw [hn]; simp [hx]
      simpa using g2.mem_iff.1 this
    · intro x hx y hy hny
      have hy' : y ∈ toList n m' := g2.mem_iff.2 (by simpa using hy)
      rw [hn, List.mem_append] at hy'
      rcases hy' with hy' | hy'
      · exact absurd hy' hny
      · have := hp.2.2 x hx y hy'
        unfold StableBefore at this
        cases asc <;> simp at this ⊢ <;> rcases this with h | ⟨h, _⟩ <;> order
  · rw [if_neg ht]
    obtain ⟨m1, a1, a2, a3⟩ := makeHeap_spec (n := n) (cmp_strictTotal (!asc) v) k (by omega) m0
      (by intro i j i1 i2 j1 j2 h; exact hinj i j i1 (by omega) j1 (by omega) h)
    obtain ⟨m2, b1, b2⟩ := selection asc v n k (by omega) m0 h0 (n - k) k m1 (le_refl k) (by omega)
      ⟨a2, a3, by intro a b h1 h2 h3 h4; omega⟩
    simp only [a1, Option.bind_some, b1]
    have hinj2 : ∀ i j : Int, 0 ≤ i → i < n → 0 ≤ j → j < n → m2 i = m2 j → i = j := by
      intro i j i1 i2 j1 j2 h
      exact b2.perm.inj hinj i j ⟨i1, i2⟩ ⟨j1, j2⟩ h
    have hperm2 : (toList n m2).Perm (List.range n) := by
      have := b2.perm.toList; rwa [toList_id n m0 h0] at this
    have hbest2 : IsTopKValues asc v n k (toList k m2) := by
      refine ⟨length_toList _ _, (toList_nodup_iff k m2).2 ?_, ?_, ?_⟩
      · intro i j i1 i2 j1 j2 h; exact hinj2 i j i1 (by omega) j1 (by omega) h
      · intro x hx
        simp only [toList, List.mem_map, List.mem_range] at hx
        obtain ⟨i, hi, rfl⟩ := hx
        have : m2 i ∈ toList n m2 := by
          simp only [toList, List.mem_map, List.mem_range]; exact ⟨i, by omega, rfl⟩
        simpa using hperm2.mem_iff.1 this
      · intro x hx y hy hny
        simp only [toList, List.mem_map, List.mem_range] at hx
        obtain ⟨i, hi, rfl⟩ := hx
        have : y ∈ toList n m2 := hperm2.mem_iff.2 (by simpa using hy)
        simp only [toList, List.mem_map, List.mem_range] at this
        obtain ⟨j, hj, rfl⟩ := this
        have hkj : k ≤ j := by
          by_contra hlt
          exact hny (by simp only [toList, List.mem_map, List.mem_range]; exact ⟨j, by omega, rfl⟩)
        exact b2.best i j (by omega) (by omega) (by omega) (by omega)
    cases sorted with
    | false => exact ⟨m2, rfl, hbest2, by simp⟩
    | true =>
      simp only [if_true]
      obtain ⟨m3, g1, g2, g3, _⟩ := hs asc v k m2 hbest2.2.1
      refine ⟨m3, g1, ⟨length_toList _ _, g2.nodup_iff.2 hbest2.2.1, ?_, ?_⟩, fun _ =>
        g3.imp fun h => (cmp_neg_iff asc v _ _).1 h⟩
      · intro x hx; exact hbest2.2.2.1 x (g2.mem_iff.1 hx)
      · intro x hx y hy hny
        exact hbest2.2.2.2 x (g2.mem_iff.1 hx) y hy (fun h => hny (g2.mem_iff.2 h))

/-- C08, part that holds for all inputs: the first `k` slots hold `k` different indices in
stable order, and no index left out has a strictly better value. Missing: which of several
equal worst values is kept (`C08_false`). -/
theorem C08_topk_partial {α : Type} [LinearOrder α] (asc : Bool) (v : Nat → α)
    (n k threshold : Nat) (sortf : (Nat → Nat → Int) → Nat → Mem → Option Mem)
    (hs : SortContract sortf) (hk : k ≤ n) :
    ∃ m', topK asc v (sortf (cmp asc v)) threshold n k true (fun x => x.toNat) = some m' ∧
      IsTopKValues asc v n k (toList k m') ∧ (toList k m').Pairwise (StableBefore asc v) := by
  obtain ⟨m', h1, h2, h3⟩ := topK_core asc v n k threshold sortf hs hk true (fun x => x.toNat)
    (fun _ _ _ => rfl)
  exact ⟨m', h1, h2, h3 rfl⟩

/-- C08 in full when the values of the slice are pairwise different. -/
theorem C08_topk_distinct_partial {α : Type} [LinearOrder α] (asc : Bool) (v : Nat → α)
    (n k threshold : Nat) (sortf : (Nat → Nat → Int) → Nat → Mem → Option Mem)
    (hs : SortContract sortf) (hk : k ≤ n)
    (hdist : ∀ x < n, ∀ y < n, v x = v y → x = y) :
    ∃ m', topK asc v (sortf (cmp asc v)) threshold n k true (fun x => x.toNat) = some m' ∧
      IsTopK asc v n k (toList k m') := by
  obtain ⟨m', h1, ⟨a, b, c, d⟩, h3⟩ := C08_topk_partial asc v n k threshold sortf hs hk
  refine ⟨m', h1, a, b, c, h3, ?_⟩
  intro x hx y hy hny
  left
  have h4 := d x hx y hy hny
  have h5 : v x ≠ v y := by
    intro h; have := hdist x (c x hx) y hy h; subst this; exact hny hx
  cases asc <;> simp at h4 ⊢
  · exact lt_of_le_of_ne h4 (Ne.symm h5)
  · exact lt_of_le_of_ne h4 h5

/-- C08 when the full sort is used (`k` at or above the threshold): exact, ties included. -/
theorem C08_topk_fullsort_partial {α : Type} [LinearOrder α] (asc : Bool) (v : Nat → α)
    (n k threshold : Nat) (sortf : (Nat → Nat → Int) → Nat → Mem → Option Mem)
    (hs : SortContract sortf) (hk : k ≤ n) (ht : threshold ≤ k) :
    ∃ m', topK asc v (sortf (cmp asc v)) threshold n k true (fun x => x.toNat) = some m' ∧
      IsTopK asc v n k (toList k m') := by
  unfold topK
  by_cases hz : k = 0 ∨ n = 0
  · have : k = 0 := by omega
    subst this
    refine ⟨_, by rw [if_pos hz], ?_⟩; simp [IsTopK, toList]
  rw [if_neg hz, if_pos ht]
  obtain ⟨m', g1, g2, g3, _⟩ := hs asc v n (fun x => x.toNat)
    (by rw [toList_id n _ (fun _ _ _ => rfl)]; exact List.nodup_range)
  rw [toList_id n _ (fun _ _ _ => rfl)] at g2
  have hn : toList n m' = toList k m' ++ (List.range' k (n - k)).map (fun j : Nat => m' j) := toList_split hk m'
  have hp : (toList n m').Pairwise (StableBefore asc v) :=
    g3.imp fun h => (cmp_neg_iff asc v _ _).1 h
  have hnd : (toList n m').Nodup := g2.nodup_iff.2 List.nodup_range
  rw [hn] at hp hnd
  rw [List.pairwise_append] at hp
  refine ⟨m', g1, length_toList k m', (List.nodup_append.1 hnd).1, ?_, hp.1, ?_⟩
  · intro x hx
    have : x ∈ toList n m' := by rw [hn]; simp [hx]
    simpa using g2.mem_iff.1 this
  · intro x hx y hy hny
    have hy' : y ∈ toList n m' := g2.mem_iff.2 (by simpa using hy)
    rw [hn, List.mem_append] at hy'
    rcases hy' with hy' | hy'
    · exact absurd hy' hny
    · exact hp.2.2 x hx y hy'

/-- The slice used against the full statement: top 2 of ten values, two equal. -/
def tieSlice : Nat → Int := fun k => [1, 1, 2, 0, 0, 0, 0, 0, 0, 0].getD k 0

theorem tie_select :
    (topK false tieSlice (fun _ m => some m) 9 10 2 false (fun x => x.toNat)).map (toList 2) =
      some [1, 2] := by decide

/-- With two equal candidates for the last place the code keeps index 1, not index 0. -/
theorem C08_false : ¬ C08_statement := by
  intro h
  obtain ⟨m', h1, h2⟩ := h false tieSlice 10 2 9 (customSort fun _ => 0)
    (customSort_contract _) (by decide)
  have ht := tie_select
  unfold topK at h1 ht
  simp only [show ¬ ((2 : Nat) = 0 ∨ (10 : Nat) = 0) by decide, if_false,
    show ¬ ((2 : Nat) ≥ 9) by decide, if_true, Bool.false_eq_true] at h1 ht
  rw [Option.map_eq_some_iff] at ht
  obtain ⟨m2, hm2, hl⟩ := ht
  cases hq : makeHeap 10 (cmp (!false) tieSlice) 2 (fun x => x.toNat) with
  | none =>
    have e := hq
    simp only [Nat.cast_ofNat] at h1
    rw [hq] at h1; simp at h1
  | some m1 =>
    simp only [Nat.cast_ofNat] at h1 hm2
    rw [hq] at h1 hm2
    simp only [Option.bind_some] at h1 hm2
    rw [Option.bind_eq_some_iff] at h1 hm2
    obtain ⟨m3, h3, h4⟩ := h1
    obtain ⟨m3', h3', h4'⟩ := hm2
    rw [h3] at h3'
    simp only [Option.some.injEq] at h3' h4'
    subst h3' h4'
    obtain ⟨m4, g1, g2, _⟩ := customSort_contract (fun _ => 0) false tieSlice 2 m3
      (by rw [hl]; decide)
    rw [h4, Option.some.injEq] at g1
    subst g1
    rw [hl] at g2
    have h0 := h2.2.2.2.2 1 (g2.mem_iff.2 (by decide)) 0 (by decide)
      (fun hm => by have := g2.mem_iff.1 hm; revert this; decide)
    revert h0
    simp [StableBefore, tieSlice]

/-- C08 at the level of the API call, values part, for every slice of a dense tensor. -/
theorem C08_tensor_topk_partial {α : Type} [LinearOrder α]
    (sortf : (Nat → Nat → Int) → Nat → Mem → Option Mem) (hs : SortContract sortf)
    (threshold : Nat → Nat) (asc : Bool) (outer : List Nat) (n k : Nat)
    (hrank : outer.length ≤ 5) (hk : k ≤ n) (data : Nat → α) (order : Nat → Nat)
    (hid : ∀ r < outer.prod, ∀ k < n, order (r * n + k) = k) :
    ∃ order', omTensorTopK sortf threshold asc k true (outer ++ [n])
        (denseStrides (outer ++ [n])) data order = some order' ∧
      ∀ r < outer.prod,
        IsTopKValues asc (fun j => data (r * n + j)) n k
          ((List.range k).map fun j => order' (r * n + j)) ∧
        ((List.range k).map fun j => order' (r * n + j)).Pairwise
          (StableBefore asc fun j => data (r * n + j)) := by
  have hl : (outer ++ [n]).getLast?.getD 0 = n := by simp
  unfold omTensorTopK
  simp only [hl]
  obtain ⟨o, h1, h2⟩ := forEachSlice_dense
    (fun v m => topK asc v (sortf (cmp asc v)) (threshold n) n k true m) data
    (fun v m => IsTopKValues asc v n k (toList k m) ∧ (toList k m).Pairwise (StableBefore asc v))
    outer n hrank
    (by
      intro v m m' hm he
      have : toList k m' = toList k m := by
        apply List.map_congr_left
        intro j hj
        have : j < k := by simpa using hj
        exact he j (by omega) (by omega)
      rw [this]; exact hm)
    order
    (by
      intro r hr m hm
      have hm' : ∀ k : Int, 0 ≤ k → k < n → m k = k.toNat := by
        intro k k1 k2; rw [hm k k1 k2, hid r hr _ (by omega)]
      obtain ⟨m', g1, g2, g3⟩ := topK_core asc (fun j => data (r * n + j)) n k (threshold n) sortf
        hs hk true m hm'
      exact ⟨m', g1, g2, g3 rfl⟩)
  refine ⟨o, h1, ?_⟩
  intro r hr
  have := h2 r hr
  simpa [toList] using this

/-- The hypotheses of the API-level theorems are met by a 2x3 tensor with the identity order. -/
example : ∀ r < [2].prod, ∀ k < 3, (fun x => x % 3) (r * 3 + k) = k := by decide

end Verif.Props
