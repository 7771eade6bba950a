import Verif.Props.DimAnalysis

/-!
# C85: functions for which the analysis of dynamic dimensions is wrong

Each of these is a function in SSA form with one of its executions; the analysis ends and calls two dimensions the same whose sizes
differ. They are the cases that `Plain` leaves out; for its last condition see `C86_dim_false`.
-/

namespace Verif.Props

open Verif.Dims

/-- The analysis of `g` (with some order of traversal) calls two dimensions of different sizes the same. -/
def Wrong (g : Graph) : Prop :=
  WellFormed g ∧ ∃ r, Executes g r ∧ ∃ n m rels, analyze g id n = some (m, rels) ∧
    ∃ v a w b, sameDim g m v a w b = true ∧ sizeAt (r.shape v) a ≠ sizeAt (r.shape w) b

theorem wrong_of (g : Graph) (r : Run) (n : ℕ) (v : Val) (a : ℤ) (w : Val) (b : ℤ) (hw : wf g = true) (hx : Executes g r)
    (h : (analyze g id n).isSome = true) (hs : sameDim g ((analyze g id n).getD ([], [])).1 v a w b = true)
    (hne : sizeAt (r.shape v) a ≠ sizeAt (r.shape w) b) : Wrong g := by
  obtain ⟨p, hp⟩ := Option.isSome_iff_exists.mp h
  rw [hp] at hs
  exact ⟨wf_spec g hw, r, hx, n, p.1, p.2, hp, v, a, w, b, hs, hne⟩

/-! ### Where, Sum, Min, Mean: three operands -/

/-- `y = Sum(a, b, c)` with `a` and `b` of one size. -/
def sumG : Graph := mkG [[none], [none], [none], [none]] [] [⟨.nary, [some 0, some 1, some 2], [3]⟩] [0, 1, 2]
  [(0, 0, "n"), (1, 0, "n")] []

/-- With `a` and `b` of size 1 and `c` of size 5, the result has size 5; the analysis says that it has the size of `a`. -/
theorem C85_three_operands_false : Wrong sumG := by
  apply wrong_of sumG (mkR [[1], [1], [5], [5]] []) 5 3 0 0 0 (by decide +kernel) ?_ (by decide +kernel) (by decide +kernel)
    (by decide +kernel)
  apply ex_spec
  · decide +kernel
  · intro o ho
    simp only [List.mem_cons, List.not_mem_nil, or_false] at ho
    subst ho
    exact ⟨[0, 1, 2], 3, rfl, rfl, bc_spec _ _ (by decide +kernel)⟩

/-- `y = Where(c, a, b)` with `c` of rank 3, and `a` and `b` of rank 2 and of one shape. -/
def whereG : Graph := mkG [[none, none, none], [none, none], [none, none], [none, none, none]] []
  [⟨.nary, [some 0, some 1, some 2], [3]⟩] [0, 1, 2] [(1, 0, "n"), (2, 0, "n"), (1, 1, "k"), (2, 1, "k")] []

/-- With `c` of shape `[7, 1, 1]` and `a`, `b` of shape `[2, 3]`: the first size of the result is 7, the analysis says that it is the
first size of `a`. -/
theorem C85_rank_false : Wrong whereG := by
  apply wrong_of whereG (mkR [[7, 1, 1], [2, 3], [2, 3], [7, 2, 3]] []) 5 3 0 1 0 (by decide +kernel) ?_ (by decide +kernel)
    (by decide +kernel) (by decide +kernel)
  apply ex_spec
  · decide +kernel
  · intro o ho
    simp only [List.mem_cons, List.not_mem_nil, or_false] at ho
    subst ho
    exact ⟨[0, 1, 2], 3, rfl, rfl, bc_spec _ _ (by decide +kernel)⟩

/-! ### Expand -/

/-- `y = Expand(x, Concat(Dim(z, 0)))`. -/
def expandG : Graph := mkG [[none], [none], [some 1], [some 1], [none]] [2, 3]
  [⟨.dim 0, [some 1], [2]⟩, ⟨.concat 0, [some 2], [3]⟩, ⟨.expand, [some 0, some 3], [4]⟩] [0, 1] [] []

/-- With `z` of size 1 and `x` of size 5 the result has size 5; the analysis says that it has the size of `z`. -/
theorem C85_expand_false : Wrong expandG := by
  apply wrong_of expandG (mkR [[5], [1], [1], [1], [5]] [[], [], [1], [1], []]) 5 4 0 1 0 (by decide +kernel) ?_ (by decide +kernel)
    (by decide +kernel) (by decide +kernel)
  apply ex_spec
  · decide +kernel
  · intro o ho
    simp only [List.mem_cons, List.not_mem_nil, or_false] at ho
    rcases ho with rfl | rfl | rfl
    · exact ⟨1, 2, 1, rfl, rfl, rfl, rfl, rfl⟩
    · exact ⟨[2], 3, by simp, rfl, rfl, cc_spec _ _ _ 0 (by decide +kernel)⟩
    · exact ⟨0, 3, 4, [1], rfl, rfl, rfl, bc_spec _ _ (by decide +kernel)⟩

/-- `y = Expand(x, Concat(Add(Dim(z, 0), [3, 4])))`. -/
def expandAddG : Graph := mkG [[none, none], [none], [some 1], [some 2], [some 2], [some 2], [none, none]] [2, 3, 4, 5]
  [⟨.dim 0, [some 1], [2]⟩, ⟨.constant 3, [], [3]⟩, ⟨.add, [some 2, some 3], [4]⟩, ⟨.concat 0, [some 4], [5]⟩,
    ⟨.expand, [some 0, some 5], [6]⟩] [0, 1] [] []

/-- With `z` of size 1 and `x` of shape `[1, 1]` the result has shape `[4, 5]`; the analysis says that its second size is the size of
`z` plus 3 (it takes the first element of the constant). -/
theorem C85_expand_offset_false : WellFormed expandAddG ∧ ∃ r, Executes expandAddG r ∧ ∃ n m rels,
    analyze expandAddG id n = some (m, rels) ∧ getDimOffset expandAddG m rels 1 0 6 1 = some 3 ∧ r.shape 1 = [1] ∧
      r.shape 6 = [4, 5] := by
  refine ⟨wf_spec _ (by decide +kernel),
    mkR [[1, 1], [1], [1], [2], [2], [2], [4, 5]] [[], [], [1], [3, 4], [4, 5], [4, 5], []], ?_, 9,
    ((analyze expandAddG id 9).getD ([], [])).1, ((analyze expandAddG id 9).getD ([], [])).2, by decide +kernel, by decide +kernel,
    rfl, rfl⟩
  apply ex_spec
  · decide +kernel
  · intro o ho
    simp only [List.mem_cons, List.not_mem_nil, or_false] at ho
    rcases ho with rfl | rfl | rfl | rfl | rfl
    · exact ⟨1, 2, 1, rfl, rfl, rfl, rfl, rfl⟩
    · simp [OpRuns, mkR]
    · exact ⟨2, 3, 4, rfl, rfl, bc_spec _ _ (by decide +kernel), by simp [mkR]⟩
    · exact ⟨[4], 5, by simp, rfl, rfl, cc_spec _ _ _ 0 (by decide +kernel)⟩
    · exact ⟨0, 5, 6, [4, 5], rfl, rfl, rfl, bc_spec _ _ (by decide +kernel)⟩

/-! ### Reshape -/

/-- Two Reshapes to the shape `Concat(p, [2])`, where `p` is an argument. -/
def reshapeG : Graph := mkG [[none], [none], [some 1], [some 1], [some 2], [none, some 2], [none, some 2]] [2, 3, 4]
  [⟨.constant 2, [], [3]⟩, ⟨.concat 0, [some 2, some 3], [4]⟩, ⟨.reshape 0, [some 0, some 4], [5]⟩,
    ⟨.reshape 0, [some 1, some 4], [6]⟩] [0, 1, 2] [] []

/-- With `p = -1`, tensors of 6 and 8 elements have 3 and 4 rows; the analysis says that they have as many. -/
theorem C85_reshape_false : Wrong reshapeG := by
  apply wrong_of reshapeG (mkR [[6], [8], [1], [1], [2], [3, 2], [4, 2]] [[], [], [-1], [2], [-1, 2], [], []]) 5 5 0 6 0
    (by decide +kernel) ?_ (by decide +kernel) (by decide +kernel) (by decide +kernel)
  apply ex_spec
  · decide +kernel
  · intro o ho
    simp only [List.mem_cons, List.not_mem_nil, or_false] at ho
    rcases ho with rfl | rfl | rfl | rfl
    · simp [OpRuns, mkR]
    · exact ⟨[2, 3], 4, by simp, rfl, rfl, cc_spec _ _ _ 0 (by decide +kernel)⟩
    · refine ⟨0, 4, 5, rfl, rfl, rfl, rfl, rfl, ?_⟩
      intro i n v h1 h2
      rcases i with _ | _ | i
      · simp [mkR] at h2; left; omega
      · simp [mkR] at h1 h2; right; left; omega
      · simp [mkR] at h1
    · refine ⟨1, 4, 6, rfl, rfl, rfl, rfl, rfl, ?_⟩
      intro i n v h1 h2
      rcases i with _ | _ | i
      · simp [mkR] at h2; left; omega
      · simp [mkR] at h1 h2; right; left; omega
      · simp [mkR] at h1

/-- `y = Reshape(x, Concat(Dim(x, 0), p))` with `p` an argument. -/
def emptyG : Graph := mkG [[none, none], [some 1], [some 1], [some 2], [none, none]] [1, 2, 3]
  [⟨.dim 0, [some 0], [2]⟩, ⟨.concat 0, [some 2, some 1], [3]⟩, ⟨.reshape 0, [some 0, some 3], [4]⟩] [0, 1] [] []

/-- With `x` of shape `[0, 3]` and `p = 5` the result has shape `[0, 5]`; the analysis says that the second sizes are equal. -/
theorem C85_empty_false : Wrong emptyG := by
  apply wrong_of emptyG (mkR [[0, 3], [1], [1], [2], [0, 5]] [[], [5], [0], [0, 5], []]) 9 4 1 0 1
    (by decide +kernel) ?_ (by decide +kernel) (by decide +kernel) (by decide +kernel)
  apply ex_spec
  · decide +kernel
  · intro o ho
    simp only [List.mem_cons, List.not_mem_nil, or_false] at ho
    rcases ho with rfl | rfl | rfl
    · exact ⟨0, 2, 0, rfl, rfl, rfl, rfl, rfl⟩
    · exact ⟨[2, 1], 3, by simp, rfl, rfl, cc_spec _ _ _ 0 (by decide +kernel)⟩
    · refine ⟨0, 3, 4, rfl, rfl, rfl, rfl, rfl, ?_⟩
      intro i n v h1 h2
      rcases i with _ | _ | i
      · simp [mkR] at h1 h2; right; left; omega
      · simp [mkR] at h1 h2; right; left; omega
      · simp [mkR] at h1

/-! ### Recurrent operations -/

/-- An LSTM on `x` with the lengths `s` of the sequences (one, for a batch of size 1), and a tensor of shape `s`. -/
def rnnG : Graph := mkG [[none, none, none], [some 1], [some 1], [none], [none, none]] [1, 2]
  [⟨.rnn 0, [some 0, none, none, none, some 1], [4]⟩, ⟨.concat 0, [some 1], [2]⟩, ⟨.constantOfShape, [some 2], [3]⟩] [0, 1] [] []

/-- With a sequence of length 7 the second tensor has 7 elements; the analysis says that it has as many as the batch. -/
theorem C85_sequence_lens_false : Wrong rnnG := by
  apply wrong_of rnnG (mkR [[9, 1, 4], [1], [1], [7], [1, 1]] [[], [7], [7], [], []]) 5 3 0 0 1
    (by decide +kernel) ?_ (by decide +kernel) (by decide +kernel) (by decide +kernel)
  apply ex_spec
  · decide +kernel
  · intro o ho
    simp only [List.mem_cons, List.not_mem_nil, or_false] at ho
    rcases ho with rfl | rfl | rfl
    · refine ⟨1, ?_, ?_⟩
      · intro i hi x hxx
        rcases hi with rfl | rfl | rfl <;> simp [Op.opd] at hxx
        subst hxx
        exact ⟨rfl, rfl⟩
      · intro s hs
        simp [Op.opd] at hs
        subst hs
        rfl
    · exact ⟨[1], 2, by simp, rfl, rfl, cc_spec _ _ _ 0 (by decide +kernel)⟩
    · exact ⟨2, 3, rfl, rfl, rfl⟩

/-! ### Add -/

/-- `y = Add(x, 3)` and `z = Concat(x, k)` with three elements in `k`. The shape helper of Add finds that `y` has the size of `x`. -/
def addG : Graph := mkG [[none], [some 1], [some 3], [none], [none]] []
  [⟨.constant 3, [], [1]⟩, ⟨.constant 0, [], [2]⟩, ⟨.add, [some 0, some 1], [3]⟩, ⟨.concat 0, [some 0, some 2], [4]⟩] [0] []
  [((3, 0), (0, 0))]

/-- With 5 elements in `x`, there are 5 in `y` and 8 in `z`; the analysis says that there are as many. -/
theorem C85_add_constant_false : Wrong addG := by
  apply wrong_of addG (mkR [[5], [1], [3], [5], [8]] []) 9 3 0 4 0
    (by decide +kernel) ?_ (by decide +kernel) (by decide +kernel) (by decide +kernel)
  apply ex_spec
  · decide +kernel
  · intro o ho
    simp only [List.mem_cons, List.not_mem_nil, or_false] at ho
    rcases ho with rfl | rfl | rfl | rfl
    · simp [OpRuns, mkR]
    · simp [OpRuns, mkR]
    · exact ⟨0, 1, 3, rfl, rfl, bc_spec _ _ (by decide +kernel), by simp [mkR]⟩
    · exact ⟨[0, 2], 4, by simp, rfl, rfl, cc_spec _ _ _ 0 (by decide +kernel)⟩

/-! ### Cast -/

/-- `y = ConstantOfShape(Concat(Cast(Cast(Dim(x, 0)))))`, where the first Cast is to 8 bits. -/
def castG : Graph := mkG [[none], [some 1], [some 1], [some 1], [some 1], [none]] [1, 3, 4]
  [⟨.dim 0, [some 0], [1]⟩, ⟨.cast, [some 1], [2]⟩, ⟨.cast, [some 2], [3]⟩, ⟨.concat 0, [some 3], [4]⟩,
    ⟨.constantOfShape, [some 4], [5]⟩] [0] [] []

/-- With 300 elements in `x` there are 44 in `y`; the analysis says that there are as many. -/
theorem C85_cast_false : Wrong castG := by
  apply wrong_of castG (mkR [[300], [1], [1], [1], [1], [44]] [[], [300], [44], [44], [44], []]) 9 5 0 0 0
    (by decide +kernel) ?_ (by decide +kernel) (by decide +kernel) (by decide +kernel)
  apply ex_spec
  · decide +kernel
  · intro o ho
    simp only [List.mem_cons, List.not_mem_nil, or_false] at ho
    rcases ho with rfl | rfl | rfl | rfl | rfl
    · exact ⟨0, 1, 300, rfl, rfl, rfl, rfl, rfl⟩
    · exact ⟨1, 2, rfl, rfl, rfl⟩
    · exact ⟨2, 3, rfl, rfl, rfl⟩
    · exact ⟨[3], 4, by simp, rfl, rfl, cc_spec _ _ _ 0 (by decide +kernel)⟩
    · exact ⟨4, 5, rfl, rfl, rfl⟩

/-! ### An index out of bounds -/

/-- `y = Expand(x, Concat(Dim(z, 0)))` with `x` of rank 2. -/
def rankG : Graph := mkG [[none, none], [none], [some 1], [some 1], [none, none]] [2, 3]
  [⟨.dim 0, [some 1], [2]⟩, ⟨.concat 0, [some 2], [3]⟩, ⟨.expand, [some 0, some 3], [4]⟩] [0, 1] [] []

/-- For the second dimension of the result the analysis reads the second element of a list with one element. -/
theorem C85_index_false : WellFormed rankG ∧ (∃ r, Executes rankG r) ∧ (4, 1) ∈ dynOf rankG 4 ∧
    ∃ o s i ws, defOp rankG 4 = some o ∧ shapeInput rankG o (4, 1) = some (s, i) ∧ concatDims rankG s = some ws ∧ ws.length ≤ i := by
  refine ⟨wf_spec _ (by decide +kernel), ⟨mkR [[5, 6], [6], [1], [1], [5, 6]] [[], [], [6], [6], []], ?_⟩, by decide +kernel,
    ⟨.expand, [some 0, some 3], [4]⟩, 3, 1, [2], by decide +kernel, by decide +kernel, by decide +kernel, by decide⟩
  apply ex_spec
  · decide +kernel
  · intro o ho
    simp only [List.mem_cons, List.not_mem_nil, or_false] at ho
    rcases ho with rfl | rfl | rfl
    · exact ⟨1, 2, 6, rfl, rfl, rfl, rfl, rfl⟩
    · exact ⟨[2], 3, by simp, rfl, rfl, cc_spec _ _ _ 0 (by decide +kernel)⟩
    · exact ⟨0, 3, 4, [6], rfl, rfl, rfl, bc_spec _ _ (by decide +kernel)⟩

/-- Where an Expand has the shape it is given, and for all other operations, the index is in the list. -/
theorem C85_index_partial (g : Graph) (r : Run) (hx : Executes g r) (hp : Plain g r) (o : Op) (ho : o ∈ g.ops) (d : Dim)
    (hd : d.1 ∈ o.results) (hdyn : (g.ty d.1)[d.2]? = some none) (s : Val) (i : ℕ) (hs : shapeInput g o d = some (s, i))
    (ws : List Val) (hws : concatDims g s = some ws) : i < ws.length := by
  obtain ⟨n, hn, _⟩ := conforms_get (hx.fits d.1) d.2 none hdyn
  obtain ⟨v, hv⟩ := (shapeInput_elem hx hp o ho d hd n hn s i hs).1
  have h1 : dimsOf g (g.ops.length + 1) s = some ws := by
    unfold concatDims at hws
    split at hws
    · exact hws
    · simp at hws
  have h2 := dimsOf_data hx _ _ _ h1
  rw [h2.1] at hv
  have h3 := (List.getElem?_eq_some_iff.mp hv).1
  rw [List.length_flatMap] at h3
  have h4 : (ws.map fun w => (r.data w).length) = ws.map fun _ => 1 := by
    apply List.map_congr_left
    intro w hw
    obtain ⟨u, hu⟩ := data_one hx w (h2.2 w hw).1 (h2.2 w hw).2.1
    rw [hu]; rfl
  rw [h4] at h3
  simpa using h3

/-- The second dimension of a ConstantOfShape with two dimensions. -/
example : ∃ (g : Graph) (r : Run) (o : Op), WellFormed g ∧ Executes g r ∧ Plain g r ∧ o ∈ g.ops ∧ (g.ty 4)[1]? = some none ∧
    shapeInput g o (4, 1) = some (3, 1) ∧ concatDims g 3 = some [1, 2] := by
  refine ⟨mkG [[none, none], [some 1], [some 1], [some 2], [none, none]] [1, 2, 3]
    [⟨.dim 0, [some 0], [1]⟩, ⟨.dim 1, [some 0], [2]⟩, ⟨.concat 0, [some 1, some 2], [3]⟩, ⟨.constantOfShape, [some 3], [4]⟩] [0] [] [],
    mkR [[5, 6], [1], [1], [2], [5, 6]] [[], [5], [6], [5, 6], []], ⟨.constantOfShape, [some 3], [4]⟩,
    wf_spec _ (by decide +kernel), ?_, ?_, by simp [mkG], by decide +kernel, by decide +kernel, by decide +kernel⟩
  · apply ex_spec
    · decide +kernel
    · intro o ho
      simp only [List.mem_cons, List.not_mem_nil, or_false] at ho
      rcases ho with rfl | rfl | rfl | rfl
      · exact ⟨0, 1, 5, rfl, rfl, rfl, rfl, rfl⟩
      · exact ⟨0, 2, 6, rfl, rfl, rfl, rfl, rfl⟩
      · exact ⟨[1, 2], 3, by simp, rfl, rfl, cc_spec _ _ _ 0 (by decide +kernel)⟩
      · exact ⟨3, 4, rfl, rfl, rfl⟩
  · constructor <;> simp [mkG, Op.opd]

end Verif.Props
