import Verif.Dims.Examples

/-!
# C85: the analysis of dynamic dimensions is right

An execution (`Executes`, Dims/Spec.lean) gives each value its sizes; `Plain` leaves out the cases in which the analysis is wrong,
which are the `_false` theorems below. `ord` is any order of traversal of the hash maps, `n` any bound on the steps of the loops: if
the analysis ends with the sets `m` and the relations `rels`, what it then says is true of every execution.
-/

namespace Verif.Props

open Verif.Dims

/-- The size at an axis; a negative axis counts from the end. -/
def sizeAt (s : List ℕ) (a : ℤ) : Option ℕ :=
  if 0 ≤ a then s[a.toNat]? else if 0 ≤ a + s.length then s[(a + s.length).toNat]? else none

theorem sizeAt_norm {g : Graph} {r : Run} (hx : Executes g r) {v : Val} {a : ℤ} {k : ℕ} (h : normAxis g v a = some k) :
    sizeAt (r.shape v) a = (r.shape v)[k]? := by
  have h1 := normAxis_some h
  rw [rank_eq hx] at h1
  unfold sizeAt
  rcases h1.2 with h2 | ⟨h2, h3⟩
  · rw [if_pos (by omega)]
    congr 1
    omega
  · rw [if_neg (by omega), if_pos (by omega)]
    congr 1
    omega

/-- Two dimensions that the analysis calls the same are there and have one size, in every execution. -/
theorem C85_same_dim_partial (g : Graph) (hw : WellFormed g) (ord : List (List Dim) → List (List Dim)) (ho : IsOrder ord) (n : ℕ)
    (m : List (List Dim)) (rels : List Rel) (h : analyze g ord n = some (m, rels)) (r : Run) (hx : Executes g r) (hp : Plain g r)
    (v w : Val) (a b : ℤ) (hs : sameDim g m v a w b = true) :
    ∃ k : ℕ, sizeAt (r.shape v) a = some k ∧ sizeAt (r.shape w) b = some k := by
  have h1 := (analyze_ok hw hx hp ord ho n m rels h).1
  obtain ⟨i, j, hi, hj, h2⟩ := sameDim_norm hs
  have h3 := sameDimAt_shape hx.fits h1.sound v i w j h2
  rw [sizeAt_norm hx hi, sizeAt_norm hx hj, ← h3]
  have hlt := (normAxis_some hi).1
  rw [rank_eq hx] at hlt
  exact ⟨_, List.getElem?_eq_getElem hlt, List.getElem?_eq_getElem hlt⟩

theorem same_at {g : Graph} {m : List (List Dim)} {r : Run} (hx : Executes g r) (hg : Good g r m) (v w : Val) (i : ℕ)
    (hs : sameDim g m v i w i = true) : (r.shape v)[i]? = (r.shape w)[i]? := by
  obtain ⟨i', j', hi, hj, h2⟩ := sameDim_norm hs
  have h3 := sameDimAt_shape hx.fits hg.sound v i' w j' h2
  have n1 := normAxis_some hi
  have n2 := normAxis_some hj
  have e1 : i' = i := by omega
  have e2 : j' = i := by omega
  rw [e1, e2] at h3
  exact h3

/-- Two tensors that the analysis says have the same shape do. -/
theorem C85_same_shape_partial (g : Graph) (hw : WellFormed g) (ord : List (List Dim) → List (List Dim)) (ho : IsOrder ord)
    (n : ℕ) (m : List (List Dim)) (rels : List Rel) (h : analyze g ord n = some (m, rels)) (r : Run) (hx : Executes g r)
    (hp : Plain g r) (v w : Val) (hs : sameShape g m v w = true) : r.shape v = r.shape w := by
  have h1 := (analyze_ok hw hx hp ord ho n m rels h).1
  unfold sameShape at hs
  simp only [Bool.and_eq_true, decide_eq_true_eq, List.all_eq_true, List.mem_range] at hs
  rw [rank_eq hx, rank_eq hx] at hs
  apply List.ext_getElem? 
  intro i
  by_cases hi : i < (r.shape v).length
  · exact same_at hx h1 v w i (hs.2 i hi)
  · rw [List.getElem?_eq_none_iff.mpr (by omega), List.getElem?_eq_none_iff.mpr (by omega)]

/-- A tensor that the analysis says is broadcast on its last dimension only: its shape is the other one with 1 for the last
size. -/
theorem C85_broadcast_last_partial (g : Graph) (hw : WellFormed g) (ord : List (List Dim) → List (List Dim)) (ho : IsOrder ord)
    (n : ℕ) (m : List (List Dim)) (rels : List Rel) (h : analyze g ord n = some (m, rels)) (r : Run) (hx : Executes g r)
    (hp : Plain g r) (v w : Val) (hs : broadcastLastDim g m v w = true) :
    ∃ (pre : List ℕ) (k : ℕ), r.shape v = pre ++ [1] ∧ r.shape w = pre ++ [k] := by
  have h1 := (analyze_ok hw hx hp ord ho n m rels h).1
  unfold broadcastLastDim at hs
  simp only [Bool.and_eq_true, decide_eq_true_eq, List.all_eq_true, List.mem_range] at hs
  obtain ⟨⟨hl, hlast⟩, hs⟩ := hs
  rw [List.getLast?_eq_getElem?] at hlast
  have h2 := conforms_static (hx.fits v) _ _ hlast
  rw [rank_eq hx, rank_eq hx] at hl
  rw [rank_eq hx] at h2 hs
  have hpos : 0 < (r.shape v).length := by
    by_contra hc
    rw [List.getElem?_eq_none_iff.mpr (by omega)] at h2
    simp at h2
  have hw1 : (r.shape w).length - 1 < (r.shape w).length := by omega
  refine ⟨(r.shape v).take ((r.shape v).length - 1), (r.shape w)[(r.shape w).length - 1], ?_, ?_⟩
  · have h3 := List.take_append_drop ((r.shape v).length - 1) (r.shape v)
    conv_lhs => rw [← h3]
    congr 1
    rw [List.drop_eq_getElem_cons (by omega), List.drop_eq_nil_of_le (by omega)]
    rw [List.getElem?_eq_getElem (by omega)] at h2
    simp only [Option.some.injEq] at h2
    rw [h2]
  · have h3 := List.take_append_drop ((r.shape w).length - 1) (r.shape w)
    conv_lhs => rw [← h3]
    have h4 : (r.shape w).take ((r.shape w).length - 1) = (r.shape v).take ((r.shape v).length - 1) := by
      apply List.ext_getElem?
      intro i
      rw [List.getElem?_take, List.getElem?_take]
      by_cases hi : i < (r.shape v).length - 1
      · rw [if_pos (by omega), if_pos hi]
        exact (same_at hx h1 v w i (hs i hi)).symm
      · rw [if_neg (by omega), if_neg hi]
    rw [h4]
    congr 1
    rw [List.drop_eq_getElem_cons (by omega), List.drop_eq_nil_of_le (by omega)]

/-- Two tensors that the analysis says have the same dynamic dimensions: the sizes are equal wherever they are not both
static. -/
theorem C85_same_dyn_shape_partial (g : Graph) (hw : WellFormed g) (ord : List (List Dim) → List (List Dim)) (ho : IsOrder ord)
    (n : ℕ) (m : List (List Dim)) (rels : List Rel) (h : analyze g ord n = some (m, rels)) (r : Run) (hx : Executes g r)
    (hp : Plain g r) (v w : Val) (hs : sameDynShape g m v w = true) :
    (r.shape v).length = (r.shape w).length ∧
      ∀ i : ℕ, ((g.ty v)[i]? = some none ∨ (g.ty w)[i]? = some none) → (r.shape v)[i]? = (r.shape w)[i]? := by
  have h1 := (analyze_ok hw hx hp ord ho n m rels h).1
  unfold sameDynShape at hs
  simp only [Bool.and_eq_true, decide_eq_true_eq, List.all_eq_true, List.mem_range] at hs
  refine ⟨by rw [← rank_eq hx, ← rank_eq hx]; exact hs.1, ?_⟩
  intro i hi
  have hlt : i < (g.ty v).length := by
    rcases hi with hi | hi
    · exact (List.getElem?_eq_some_iff.mp hi).1
    · rw [hs.1]; exact (List.getElem?_eq_some_iff.mp hi).1
  have h2 := hs.2 i hlt
  have h3 : sameDim g m v i w i = true := by
    rcases hi with hi | hi
    · rw [hi] at h2; exact h2
    · rw [hi] at h2
      split at h2
      · simp_all
      · exact h2
  exact same_at hx h1 v w i h3

/-- The offset between two dimensions is the difference of their sizes (for tensors whose static shape is not `[1]`). -/
theorem C85_offset_partial (g : Graph) (hw : WellFormed g) (ord : List (List Dim) → List (List Dim)) (ho : IsOrder ord)
    (n : ℕ) (m : List (List Dim)) (rels : List Rel) (h : analyze g ord n = some (m, rels)) (r : Run) (hx : Executes g r)
    (hp : Plain g r) (v w : Val) (a b c : ℤ) (hv : g.ty v ≠ [some 1]) (hw' : g.ty w ≠ [some 1])
    (hs : getDimOffset g m rels v a w b = some c) :
    ∃ k l : ℕ, sizeAt (r.shape v) a = some k ∧ sizeAt (r.shape w) b = some l ∧ (k : ℤ) + c = l := by
  obtain ⟨h1, h2⟩ := analyze_ok hw hx hp ord ho n m rels h
  unfold getDimOffset at hs
  split at hs
  · rename_i i j hi hj
    rw [sizeAt_norm hx hi, sizeAt_norm hx hj]
    have li := (normAxis_some hi).1
    have lj := (normAxis_some hj).1
    rw [rank_eq hx] at li lj
    refine ⟨(r.shape v)[i], (r.shape w)[j], List.getElem?_eq_getElem li, List.getElem?_eq_getElem lj, ?_⟩
    have key : ∀ (p : ℤ × Dim) (d : Dim), p ∈ relsOf rels d → (size g r d).map (fun u => u + p.1) = size g r p.2 := by
      intro p d hpm
      exact (h2 _ (mem_relsOf hpm)).2
    have sv : size g r (v, i) = some (((r.shape v)[i] : ℕ) : ℤ) := by
      rw [size_shape g r _ hv]; dsimp only; rw [List.getElem?_eq_getElem li]; rfl
    have sw : size g r (w, j) = some (((r.shape w)[j] : ℕ) : ℤ) := by
      rw [size_shape g r _ hw']; dsimp only; rw [List.getElem?_eq_getElem lj]; rfl
    split at hs
    · rename_i hsd
      simp only [Option.some.injEq] at hs
      have h3 := sameDimAt_shape hx.fits h1.sound v i w j hsd
      rw [List.getElem?_eq_getElem li, List.getElem?_eq_getElem lj] at h3
      simp only [Option.some.injEq] at h3
      rw [h3, ← hs, add_zero]
    · split at hs
      · rename_i p hf
        simp only [Option.some.injEq] at hs
        have h3 := key p _ (List.mem_of_find?_eq_some hf)
        have h4 := List.find?_some hf
        simp only [decide_eq_true_eq] at h4
        rw [h4, sv, sw] at h3
        simp only [Option.map_some, Option.some.injEq] at h3
        rw [← hs]; exact h3
      · rw [Option.map_eq_some_iff] at hs
        obtain ⟨p, hf, hs⟩ := hs
        have h3 := key p _ (List.mem_of_find?_eq_some hf)
        have h4 := List.find?_some hf
        simp only [decide_eq_true_eq] at h4
        rw [h4, sv, sw] at h3
        simp only [Option.map_some, Option.some.injEq] at h3
        rw [← hs, ← h3]
        omega
  · simp at hs

/-- Two dimensions that the analysis calls the same with offsets. -/
theorem C85_same_with_offset_partial (g : Graph) (hw : WellFormed g) (ord : List (List Dim) → List (List Dim)) (ho : IsOrder ord)
    (n : ℕ) (m : List (List Dim)) (rels : List Rel) (h : analyze g ord n = some (m, rels)) (r : Run) (hx : Executes g r)
    (hp : Plain g r) (v w : Val) (a b o1 o2 : ℤ) (hv : g.ty v ≠ [some 1]) (hw' : g.ty w ≠ [some 1])
    (hs : sameDimWithOffset g m rels v a o1 w b o2 = true) :
    ∃ k l : ℕ, sizeAt (r.shape v) a = some k ∧ sizeAt (r.shape w) b = some l ∧ (k : ℤ) + o1 = l + o2 := by
  unfold sameDimWithOffset at hs
  split at hs
  · rename_i i j hi hj
    have hs' : getDimOffset g m rels v a w b = some (o1 - o2) := by
      split at hs
      · rename_i h0
        unfold getDimOffset
        rw [hi, hj]
        dsimp only
        rw [if_pos hs, h0]
      · simpa using hs
    obtain ⟨k, l, h1, h2, h3⟩ := C85_offset_partial g hw ord ho n m rels h r hx hp v w a b (o1 - o2) hv hw' hs'
    exact ⟨k, l, h1, h2, by omega⟩
  · simp at hs

/-! ### A function the theorems apply to

`c = Concat(x, k)`, `d = Concat(y, k)`, where `x` and `y` have one size by name and `k` has three elements: `c` and `d` have one size,
three more than `x`. -/

namespace DimWitness

def tys : List Ty := [[none], [none], [some 3], [none], [none]]
def ops : List Op := [⟨.constant 0, [], [2]⟩, ⟨.concat 0, [some 0, some 2], [3]⟩, ⟨.concat 0, [some 1, some 2], [4]⟩]
def names : List (ℕ × ℕ × String) := [(0, 0, "n"), (1, 0, "n")]
def g : Graph := mkG tys [] ops [0, 1] names []
def r : Run := mkR [[5], [5], [3], [8], [8]] []

theorem executes : Executes g r := by
  apply ex_spec
  · decide +kernel
  · intro o ho
    simp only [ops, List.mem_cons, List.not_mem_nil, or_false] at ho
    rcases ho with rfl | rfl | rfl
    · simp [OpRuns, mkR]
    · exact ⟨[0, 2], 3, by simp, rfl, rfl, cc_spec _ _ _ 0 (by decide +kernel)⟩
    · exact ⟨[1, 2], 4, by simp, rfl, rfl, cc_spec _ _ _ 0 (by decide +kernel)⟩

theorem plain : Plain g r := by
  constructor <;> simp [g, mkG, ops]

end DimWitness

example : ∃ m rels, analyze DimWitness.g id 5 = some (m, rels) ∧ sameDim DimWitness.g m 3 0 4 (-1) = true ∧
    sameShape DimWitness.g m 0 1 = true ∧ getDimOffset DimWitness.g m rels 1 0 4 0 = some 3 ∧
    WellFormed DimWitness.g ∧ Executes DimWitness.g DimWitness.r ∧ Plain DimWitness.g DimWitness.r := by
  refine ⟨((analyze DimWitness.g id 5).getD ([], [])).1, ((analyze DimWitness.g id 5).getD ([], [])).2, by decide +kernel,
    by decide +kernel, by decide +kernel, by decide +kernel, wf_spec _ (by decide +kernel), DimWitness.executes, DimWitness.plain⟩

end Verif.Props
