import Verif.Lower.SelectLemmas

/-!
C66: NonZero returns the coordinates of the elements that are not zero.
C67: Compress keeps the elements (or slices) whose condition is true.
C68: Trilu, Range, Flatten and Size.
-/

namespace Verif.Props

open Verif.Lower

variable {R : Type*}

/-! ### C66 -/

/-- The coordinates of the elements of `X` that are not zero, in row-major order. -/
def nonZeroCoords (isZero : R → Bool) (X : Mem R) : List Idx := (idxs X.shape).filter fun i => !isZero (X.data i)

/-- Row `a` of the result of a NonZero on `n` elements. -/
def rowOf (out : Mem ℤ) (a n : ℕ) : List ℤ := (List.range n).map fun (i : ℕ) => out.data [(a : ℤ), (i : ℤ)]

/-- NonZero: the number of columns is the number of nonzero elements, and each row is the
sorted list of the coordinates along one dimension.  Missing from the full property (row `a`
is the list of coordinates along dimension `a`, in row-major order of the elements): the rows
after the first are sorted independently of each other, see `C66_false`. -/
theorem C66_nonzero_partial (isZero : R → Bool) (X : Mem R) (junk : Idx → ℤ) (hd : ∀ d ∈ X.shape, 0 ≤ d) :
    ∃ out, nonZero isZero X junk = some out ∧
      out.shape = [(X.shape.length : ℤ), ((nonZeroCoords isZero X).length : ℤ)] ∧
      ∀ a : ℕ, a < X.shape.length →
        (rowOf out a (nonZeroCoords isZero X).length).Perm ((nonZeroCoords isZero X).map fun i => i.getD a 0) ∧
        (rowOf out a (nonZeroCoords isZero X).length).Pairwise (· ≤ ·) ∧
        (a = 0 → rowOf out a (nonZeroCoords isZero X).length = (nonZeroCoords isZero X).map fun i => i.getD a 0) := by
  obtain ⟨out, e, hs, h⟩ := nonZero_spec isZero X junk hd
  have hnz : nonZeroCoords isZero X = nzIdx isZero X := rfl
  refine ⟨out, e, by rw [hnz]; exact hs, ?_⟩
  intro a ha
  rw [hnz]
  have hg : X.shape[a]? = some (X.shape[a]) := List.getElem?_eq_getElem ha
  have hp := perm_repeated isZero X hg
  have hl : (repeated (nzCount isZero X a) X.shape[a]).length = (nzIdx isZero X).length := by
    rw [← hp.length_eq, List.length_map]
  have hrow : rowOf out a (nzIdx isZero X).length = repeated (nzCount isZero X a) X.shape[a] := by
    refine List.ext_getElem (by simp [rowOf, hl]) fun i h1 h2 => ?_
    have hi : i < (nzIdx isZero X).length := by rw [← hl]; exact h2
    have := h a _ i hg hi
    rw [List.getElem?_eq_getElem h2] at this
    simpa [rowOf] using this
  rw [hrow]
  refine ⟨hp.symm, sorted_repeated _ _, ?_⟩
  rintro rfl
  obtain ⟨d, ds, hsh⟩ := List.exists_cons_of_length_pos ha
  have := row_zero isZero X hsh
  have hd0 : X.shape[0] = d := by
    have h0 : X.shape[0]? = some d := by rw [hsh]; rfl
    rw [hg] at h0
    exact Option.some.inj h0
  rw [hd0]
  exact this

/-- For vectors the result is exact. -/
theorem C66_vector (isZero : R → Bool) (X : Mem R) (junk : Idx → ℤ) (d : ℤ) (hd : 0 ≤ d) (hX : X.shape = [d]) :
    ∃ out, nonZero isZero X junk = some out ∧ out.shape = [1, ((nonZeroCoords isZero X).length : ℤ)] ∧
      ∀ (j : ℕ) (k : ℤ), (nonZeroCoords isZero X)[j]? = some [k] → out.data [0, (j : ℤ)] = k := by
  obtain ⟨out, e, hs, h⟩ := C66_nonzero_partial isZero X junk (by rw [hX]; simpa using hd)
  rw [hX] at hs h
  refine ⟨out, e, by simpa using hs, ?_⟩
  intro j k hj
  obtain ⟨_, _, h0⟩ := h 0 (by simp)
  have hr := congrArg (fun l => l[j]?) (h0 rfl)
  have hlt := (List.getElem?_eq_some_iff.1 hj).1
  simp only [rowOf, List.getElem?_map, List.getElem?_range hlt, hj, Option.map_some, Option.some.injEq] at hr
  simpa using hr

example : ∃ X : Mem ℤ, (∀ d ∈ X.shape, 0 ≤ d) ∧ nonZeroCoords (· == 0) X = [[0, 1], [1, 0], [1, 2]] ∧
    (nonZero (· == 0) X (fun _ => 0)).map (fun o => (o.shape, rowOf o 0 3, rowOf o 1 3)) =
      some ([2, 3], [0, 1, 1], [0, 1, 2]) :=
  ⟨⟨[2, 3], fun i => if i = [0, 1] ∨ i = [1, 0] ∨ i = [1, 2] then 5 else 0⟩, by decide +kernel, by decide +kernel,
    by decide +kernel⟩

example : ∃ X : Mem ℤ, X.shape = [4] ∧ nonZeroCoords (· == 0) X = [[1], [3]] ∧
    (nonZero (· == 0) X (fun _ => 0)).map (fun o => rowOf o 0 2) = some [1, 3] :=
  ⟨⟨[4], fun i => i.getD 0 0 % 2⟩, rfl, by decide +kernel, by decide +kernel⟩

/-- For matrices the columns need not be coordinates of nonzero elements: for
`[[0, 1], [1, 0]]` the columns are `(0, 0)` and `(1, 1)`. -/
theorem C66_false : ¬ ∀ (X : Mem ℤ), (∀ d ∈ X.shape, 0 ≤ d) → ∀ out,
    nonZero (· == 0) X (fun _ => 0) = some out → ∀ a : ℕ, a < X.shape.length →
      rowOf out a (nonZeroCoords (· == 0) X).length = (nonZeroCoords (· == 0) X).map fun i => i.getD a 0 := by
  intro h
  have e : (nonZero (· == 0) (⟨[2, 2], fun i => if i = [0, 1] ∨ i = [1, 0] then 1 else 0⟩ : Mem ℤ) (fun _ => 0)).map
      (fun o => rowOf o 1 2) = some [0, 1] := by decide +kernel
  rcases ho : nonZero (· == 0) (⟨[2, 2], fun i => if i = [0, 1] ∨ i = [1, 0] then 1 else 0⟩ : Mem ℤ) (fun _ => 0)
    with _ | out
  · rw [ho] at e; cases e
  · rw [ho] at e
    simp only [Option.map_some, Option.some.injEq] at e
    have := h _ (by decide +kernel) out ho 1 (by decide)
    rw [show (nonZeroCoords (· == 0) (⟨[2, 2], fun i => if i = [0, 1] ∨ i = [1, 0] then 1 else 0⟩ : Mem ℤ)).length = 2
      by decide +kernel, e] at this
    revert this
    decide +kernel

/-! ### C67 -/

/-- The members of a list whose condition is true; the members after the last condition
are dropped. -/
def keepTrue {α : Type*} (L : List α) (conds : List Bool) : List α :=
  ((L.zip conds).filter fun p => p.2).map fun p => p.1

theorem selected_eq {α : Type*} : ∀ (L : List α) (cs : List Bool), selected L cs = keepTrue L cs
  | [], _ => by simp [selected, keepTrue]
  | _ :: _, [] => by simp [selected, keepTrue]
  | a :: L, c :: cs => by
    have := selected_eq L cs
    unfold keepTrue at this ⊢
    cases c <;> simp [selected, this]

/-- The conditions. -/
def conds (cond : Mem Bool) : List Bool := (upto (cond.shape.getD 0 0)).map fun k => cond.data [k]

/-- Compress without axis: the elements, in row-major order, whose condition is true.
`static` are the dimensions known at compile time, which decide whether the run-time test
that there is a condition left is emitted. -/
theorem C67_flat {cond : Mem Bool} {n : ℤ} (hn : 0 ≤ n) (hc : cond.shape = [n]) (input : Mem R)
    (hd : ∀ d ∈ input.shape, 0 ≤ d) (hne : input.shape ≠ []) (hle : n ≤ numel input.shape) (staticCond : Option ℤ) (static : List (Option ℤ))
    (hsc : ∀ x, staticCond = some x → n = x)
    (hst : List.Forall₂ (fun (s : Option ℤ) d => ∀ x, s = some x → d = x) static input.shape) (junk : Idx → R) :
    ∃ out, compressFlat (skipFlat staticCond static) cond input junk = some out ∧
      out.shape = [((keepTrue (idxs input.shape) (conds cond)).length : ℤ)] ∧
      ∀ (j : ℕ) (i : Idx), (keepTrue (idxs input.shape) (conds cond))[j]? = some i →
        out.data [(j : ℤ)] = input.data i := by
  rw [← selected_eq]
  refine compressFlat_spec hn hc input _ hd hle ?_ junk
  exact skipFlat_le hsc hne hst

example : ∃ (cond : Mem Bool) (input : Mem ℤ), cond.shape = [5] ∧ input.shape = [2, 3] ∧
    List.Forall₂ (fun (s : Option ℤ) d => ∀ x, s = some x → d = x) [some 2, some 3] input.shape ∧
    (compressFlat (skipFlat (some 5) [some 2, some 3]) cond input (fun _ => 0)).map
      (fun o => (o.shape, o.data [0], o.data [1])) = some ([2], 1, 11) :=
  ⟨⟨[5], fun i => decide (i = [1] ∨ i = [4])⟩, ⟨[2, 3], fun i => 10 * i.getD 0 0 + i.getD 1 0⟩, rfl, rfl,
    by simp, by decide +kernel⟩

/-- Compress along the dimension between `da` and `dc`: the slices whose condition is
true. -/
theorem C67_axis {cond : Mem Bool} {n : ℤ} (hn : 0 ≤ n) (hc : cond.shape = [n]) {da dc : List ℤ} {d : ℤ}
    {input : Mem R} (hin : input.shape = da ++ [d] ++ dc) (hle : n ≤ d) (staticCond staticDim : Option ℤ)
    (hsc : ∀ x, staticCond = some x → n = x) (hsd : ∀ x, staticDim = some x → d = x)
    {axis : ℤ} (hax : axis = da.length ∨ axis = (da.length : ℤ) - input.shape.length) (junk : Idx → R) :
    ∃ out, compressAxis (skipAxis staticCond staticDim) cond input axis junk = some out ∧
      out.shape = da ++ [((keepTrue (upto d) (conds cond)).length : ℤ)] ++ dc ∧
      ∀ (j : ℕ) (k : ℤ), (keepTrue (upto d) (conds cond))[j]? = some k →
        ∀ a c, InShape a da → InShape c dc → out.data (a ++ [(j : ℤ)] ++ c) = input.data (a ++ [k] ++ c) := by
  rw [← selected_eq]
  refine compressAxis_spec hn hc hin hle _ ?_ hax junk
  intro h
  unfold skipAxis at h
  split at h
  · rename_i x y
    have h1 := hsc x rfl
    have h2 := hsd y rfl
    simp only [decide_eq_true_eq] at h
    omega
  · cases h

example : ∃ (cond : Mem Bool) (input : Mem ℤ), cond.shape = [2] ∧ input.shape = [2] ++ [3] ++ [] ∧
    (compressAxis (skipAxis (some 2) (some 3)) cond input (-1) (fun _ => 0)).map
      (fun o => (o.shape, o.data [0, 0], o.data [1, 0])) = some ([2, 1], 1, 11) :=
  ⟨⟨[2], fun i => decide (i = [1])⟩, ⟨[2, 3], fun i => 10 * i.getD 0 0 + i.getD 1 0⟩, rfl, rfl, by decide +kernel⟩

/-! ### C68 -/

/-- Trilu on the last two dimensions: the upper (or lower) triangle relative to diagonal `k`
is kept, the rest is zero. -/
theorem C68_trilu [Zero R] {input : Mem R} {da : List ℤ} {m n : ℤ} (hin : input.shape = da ++ [m, n]) (k : Option ℤ)
    (upper : Bool) (junk : Idx → R) :
    ∃ out, trilu input k upper junk = some out ∧ out.shape = da ++ [m, n] ∧
      ∀ a i j, InShape a da → 0 ≤ i → i < m → 0 ≤ j → j < n →
        out.data (a ++ [i, j]) =
          if (if upper then j - i ≥ k.getD 0 else j - i ≤ k.getD 0) then input.data (a ++ [i, j]) else 0 := by
  have hlen : input.shape.length = da.length + 2 := by rw [hin]; simp
  have hget : ∀ (a : Idx) (i j : ℤ), InShape a da → (a ++ [i, j]).getD (da.length + 2 - 2) 0 = i ∧
      (a ++ [i, j]).getD (da.length + 2 - 1) 0 = j := by
    intro a i j ha
    rw [← ha.length]
    refine ⟨?_, ?_⟩
    · rw [show a.length + 2 - 2 = a.length by omega, List.getD_append_right _ _ _ _ (le_refl _)]; simp
    · rw [show a.length + 2 - 1 = a.length + 1 by omega, List.getD_append_right _ _ _ _ (by omega)]; simp
  have h := fill_spec (⟨input.shape, junk⟩ : Mem R)
    (fun l =>
      (input.load l).map fun v =>
        if (if upper then decide (k.getD 0 + l.getD (input.shape.length - 2) 0 > l.getD (input.shape.length - 1) 0)
          else decide (k.getD 0 + l.getD (input.shape.length - 2) 0 < l.getD (input.shape.length - 1) 0)) then 0 else v)
    (fun l => if (if upper then decide (k.getD 0 + l.getD (input.shape.length - 2) 0 > l.getD (input.shape.length - 1) 0)
          else decide (k.getD 0 + l.getD (input.shape.length - 2) 0 < l.getD (input.shape.length - 1) 0)) then 0
          else input.data l) (by
      intro l hl
      rw [mem_load (m := input) hl]; rfl)
  obtain ⟨out, e, hs, hv⟩ := h
  refine ⟨out, e, hs.trans hin, ?_⟩
  intro a i j ha hi0 hi1 hj0 hj1
  have hin' : InShape (a ++ [i, j]) input.shape := by
    rw [hin]
    exact inShape_app ha (inShape_app (a := [i]) (da := [m]) (inShape_one ⟨hi0, hi1⟩) (inShape_one ⟨hj0, hj1⟩))
  rw [hv _ hin', hlen, (hget a i j ha).1, (hget a i j ha).2]
  cases upper
  · simp only [Bool.false_eq_true, if_false, decide_eq_true_eq]
    by_cases hc : k.getD 0 + i < j
    · rw [if_pos hc, if_neg (by omega)]
    · rw [if_neg hc, if_pos (by omega)]
  · simp only [if_true, decide_eq_true_eq]
    by_cases hc : k.getD 0 + i > j
    · rw [if_pos hc, if_neg (by omega)]
    · rw [if_neg hc, if_pos (by omega)]

example : (trilu (⟨[3, 3], fun i => 1 + 3 * i.getD 0 0 + i.getD 1 0⟩ : Mem ℤ) (some 1) true (fun _ => 7)).map
    (fun o => (idxs o.shape).map o.data) = some [0, 2, 3, 0, 0, 6, 0, 0, 0] := by decide +kernel

/-- Range on integers, whenever the lowering yields a result: as many elements as there are
before the limit, element `i` being `start + i * delta`. -/
theorem C68_range_partial (static : Bool) (start limit delta : ℤ) (junk : Idx → ℤ) (out : Mem ℤ)
    (h : range static start limit delta junk = some out) :
    ∃ n : ℕ, out.shape = [(n : ℤ)] ∧
      (∀ i : ℕ, i < n ↔ if 0 < delta then start + i * delta < limit else limit < start + i * delta) ∧
      ∀ i : ℕ, i < n → out.data [(i : ℤ)] = start + i * delta := by
  unfold range at h
  cases hn : rangeSize static start limit delta with
  | none => rw [hn] at h; cases h
  | some n =>
    rw [hn, Option.bind_some] at h
    obtain ⟨h0, h1⟩ := rangeSize_spec hn
    obtain ⟨o, e, hs, hv⟩ := rangeLoop_spec n.toNat start delta junk
    rw [show ((n.toNat : ℕ) : ℤ) = n by omega] at e hs
    rw [e] at h
    cases h
    refine ⟨n.toNat, by rw [hs]; congr 1; omega, fun i => ?_, fun i hi => ?_⟩
    · rw [← h1 i (by omega)]; omega
    · rw [hv i hi]; simp

/-- A result is obtained when the step is not zero and, for sizes not known at compile time,
the limit is not more than one step behind the start. -/
theorem C68_range_defined (static : Bool) (start limit delta : ℤ) (junk : Idx → ℤ) (hd : delta ≠ 0)
    (h : static = true ∨ if 0 < delta then start - delta < limit else limit < start - delta) :
    ∃ out, range static start limit delta junk = some out := by
  have hsz : ∃ n : ℤ, 0 ≤ n ∧ rangeSize static start limit delta = some n := by
    unfold rangeSize rangeShape ceilDivS
    rw [if_neg hd]
    cases static with
    | true => exact ⟨max (-(Int.fdiv (-(limit - start)) delta)) 0, by omega, by simp⟩
    | false =>
      simp only [Bool.false_eq_true, if_false, false_or] at h ⊢
      refine ⟨-(Int.fdiv (-(limit - start)) delta), ?_, ?_⟩
      · by_contra hn
        by_cases hp : 0 < delta
        · rw [if_pos hp] at h
          have := (ceilDivS_pos hp (-1) (a := limit - start)).2 (by omega)
          omega
        · rw [if_neg hp] at h
          have := (ceilDivS_neg (by omega) (-1) (a := limit - start) (b := delta)).2 (by omega)
          omega
      · rw [Option.bind_some, if_neg]
        by_cases hp : 0 < delta
        · rw [if_pos hp] at h
          have := (ceilDivS_pos hp (-1) (a := limit - start)).2 (by omega)
          omega
        · rw [if_neg hp] at h
          have := (ceilDivS_neg (by omega) (-1) (a := limit - start) (b := delta)).2 (by omega)
          omega
  obtain ⟨n, hn, e⟩ := hsz
  obtain ⟨o, e', _⟩ := rangeLoop_spec n.toNat start delta junk
  rw [show ((n.toNat : ℕ) : ℤ) = n by omega] at e'
  exact ⟨o, by unfold range; rw [e, Option.bind_some, e']⟩

example : (range false 10 4 (-2) (fun _ => 0)).map (fun o => (o.shape, o.data [0], o.data [2])) = some ([3], 10, 6) ∧
    (range true 10 4 2 (fun _ => 0)).map (fun o => o.shape) = some [0] := by decide +kernel

/-- The run-time size is not clamped at zero: the empty range from 10 to 4 by steps of 2
has no result, although it has one when the operands are constants. -/
theorem C68_range_empty_false : ¬ ∀ (start limit delta : ℤ), delta ≠ 0 →
    ∃ out, range false start limit delta (fun _ => 0) = some out := by
  intro h
  obtain ⟨out, e⟩ := h 10 4 2 (by decide)
  have e' : range false 10 4 2 (fun _ => 0) = none := by decide +kernel
  rw [e'] at e
  cases e

/-- Flatten at the boundary between `da` and `dc`: the result is the matrix whose rows and
columns are the row-major positions in the two groups. -/
theorem C68_flatten {input : Mem R} {da dc : List ℤ} (hin : input.shape = da ++ dc) {axis : ℤ}
    (hax : axis = da.length ∨ (axis < 0 ∧ axis = (da.length : ℤ) - input.shape.length)) (junk : Idx → R) :
    ∃ out, flatten input axis junk = some out ∧ out.shape = [numel da, numel dc] ∧
      ∀ a c, InShape a da → InShape c dc → out.data [lin da a, lin dc c] = input.data (a ++ c) :=
  flatten_spec hin hax junk

/-- Every element of the flattened matrix is covered by `C68_flatten`. -/
theorem C68_flatten_onto {da : List ℤ} (hd : ∀ d ∈ da, 0 ≤ d) (r : ℤ) (h : 0 ≤ r ∧ r < numel da) :
    ∃ a, InShape a da ∧ lin da a = r := by
  have h1 := idxs_lin hd
  have h2 : r ∈ (idxs da).map (lin da) := by
    rw [h1]; exact mem_upto.2 h
  obtain ⟨a, ha, he⟩ := List.mem_map.1 h2
  exact ⟨a, mem_idxs.1 ha, he⟩

example : (flatten (⟨[2, 3, 2], fun i => 100 * i.getD 0 0 + 10 * i.getD 1 0 + i.getD 2 0⟩ : Mem ℤ) (-1) (fun _ => 7)).map
    (fun o => (o.shape, o.data [4, 1], o.data [5, 0])) = some ([6, 2], 111, 120) := by decide +kernel

/-- Size is the number of elements, whichever dimensions are known at compile time. -/
theorem C68_size {static : List (Option ℤ)} {dims : List ℤ}
    (h : List.Forall₂ (fun (s : Option ℤ) d => ∀ x, s = some x → d = x) static dims) (hd : ∀ d ∈ dims, 0 ≤ d) :
    sizeOf static dims = (idxs dims).length := by
  rw [sizeOf_spec h, length_idxs hd]

example : List.Forall₂ (fun (s : Option ℤ) d => ∀ x, s = some x → d = x) [some 2, none, some 4] [2, 3, 4] ∧
    sizeOf [some 2, none, some 4] [2, 3, 4] = 24 := ⟨by simp, by decide +kernel⟩

end Verif.Props
