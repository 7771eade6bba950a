import Verif.Props.RewriteConcat

/-! # C88: rewrites of Concat, Dim, Where and Expand that change results -/

namespace Verif.Props

open Verif.Rewrite

/-- A Cast of a concatenation of values without recorded rank: the new Casts get the type of their operands. -/
theorem C88_cast_concat_false : ∃ env e, Mistypes swapCastConcat env e := by
  refine ⟨exEnv, exU (.cast 1 i64) [exU (.concat 1) [.arg 0 (.unranked f32), .arg 0 (.unranked f32)] f32] i64, _, rfl,
    typedB_typed (by decide +kernel), ⟨_, rfl⟩, ?_⟩
  intro h
  have := (typed_op.1 h).2.1
  revert this
  decide

/-- Concat of empty, full, empty, full matrices drops the last one: positions are not adjusted after the first removal. -/
theorem C88_concat_zero_false : ∃ env e, Breaks removeDimZero env e :=
  ⟨exEnv2, exU (.concat 1) [exZ, exM, exZ, exM] f32, breaks_of (by decide +kernel)⟩

/-- Concat of two matrices without columns makes the compiler crash. -/
theorem C88_concat_zero_crash_false : ∃ env e, Crashes removeDimZero env e :=
  ⟨exEnv2, exU (.concat 1) [exM, exZ, exZ] f32, crashes_of (by decide +kernel)⟩

/-- Concat along axis -1 makes the compiler crash. -/
theorem C88_concat_zero_axis_false : ∃ env e, Crashes removeDimZero env e :=
  ⟨exEnv2, exU (.concat (-1)) [exM, exM] f32, crashes_of (by decide +kernel)⟩

/-- The same for operands of shape (0). -/
theorem C88_concat_empty_false : (∃ env e, Breaks removeEmpty env e) ∧ ∃ env e, Crashes removeEmpty env e :=
  ⟨⟨exEnv2, exU (.concat 0) [exE, exV, exE, exV] f32, breaks_of (by decide +kernel)⟩,
    exEnv2, exU (.concat 0) [exV, exE, exE] f32, crashes_of (by decide +kernel)⟩

/-- Dim of a Reshape to (n, 12) where n is -1 at run time gives -1. -/
theorem C88_dim_reshape_false : ∃ env e, Breaks (dimFromReshape zAlg) env e :=
  ⟨fun i => if i = 0 then iota [2, 3, 4] else ofInts zAlg [-1], .op (.dim 0) [exReN] (.static [1] i64),
    breaks_of (by decide +kernel)⟩

/-- Dim of a Transpose without permutation makes the compiler crash. -/
theorem C88_dim_transpose_null_false : ∃ env e, Crashes dimFromTranspose env e :=
  ⟨exEnv, .op (.dim 1) [.op (.transpose none) [exX] (.static [4, 3, 2] f32)] (.static [1] i64),
    crashes_of (by decide +kernel)⟩

/-- A last operand of shape (1) is not broadcast to the shape (3) of the result. -/
theorem C88_where_false_false : ∃ env e, Breaks (alwaysFalseWhere zAlg) env e :=
  ⟨exEnv, exWhere (cvec [-1]) (cvec [4]), breaks_of (by decide +kernel)⟩

/-- The concatenation compared is not the last operand of Where. -/
theorem C88_where_equal_false : ∃ env e, Breaks (removeWhereEqual zAlg) env e :=
  ⟨exEnv, .op .where_ [.op (.binary .equal) [.op (.concat 0) [cvec [-1], cvec [-1]] (.static [2] i64), cvec [-1, -1]]
      (.static [2] exBool), cvec [8, 9], .op (.concat 0) [exDim 0, exDim 1] (.static [2] i64)] (.static [2] i64),
    breaks_of (by decide +kernel)⟩

/-- An extent 0 compared with the constant 0. -/
theorem C88_where_equal_zero_false : ∃ env e, Breaks (removeWhereEqual zAlg) env e :=
  ⟨fun _ => iota [0, 2], let d := .op (.dim 0) [.arg 0 (.unranked f32)] (.static [1] i64)
    let c := .op (.concat 0) [d] (.static [1] i64)
    .op .where_ [.op (.binary .equal) [c, cvec [0]] (.static [1] exBool), cvec [8], c] (.static [1] i64),
    breaks_of (by decide +kernel)⟩

/-- Constants of one element with a concatenation of two make the compiler crash. -/
theorem C88_where_equal_short_false : ∃ env e, Crashes (removeWhereEqual zAlg) env e :=
  ⟨exEnv, let c := .op (.concat 0) [exDim 0, cvec [-1]] (.static [2] i64)
    .op .where_ [.op (.binary .equal) [c, cvec [-1]] (.static [2] exBool), cvec [8, 9], c] (.static [2] i64),
    crashes_of (by decide +kernel)⟩

/-- A vector of one element reshaped to a scalar, plus a vector of one element: the result loses its axis. -/
theorem C88_reshape_binary_false : ∃ env e, Breaks propagateReshapeBinary env e :=
  ⟨fun _ => iota [1], .op (.binary .add) [.op (.reshape 0) [.arg 0 (.static [1] i64), cvec []] (.static [] i64), cvec [5]]
    (.static [1] i64), breaks_of (by decide +kernel)⟩

/-- Unsqueeze at -1 of 2 by 3 gives 2 by 1 by 3 instead of 2 by 3 by 1. -/
theorem C88_unsqueeze_expand_false : ∃ env e, Breaks (unsqueezeOfExpand zAlg) env e :=
  ⟨exEnv, exU .unsqueeze [exExp, cvec [-1]] f32, breaks_of (by decide +kernel)⟩

/-- A slice with a start known only at run time: the new shape holds the mark of a dynamic extent. -/
theorem C88_slice_expand_false : ∃ env e, Breaks (sliceOfExpand zAlg) env e :=
  ⟨fun i => if i = 1 then ofInts zAlg [2] else ofInts zAlg [1],
    .op .slice [exExp, .arg 0 (.static [1] i64), cvec [3], cvec [-1], cvec [1]] ⟨some [none, none], f32⟩,
    breaks_of (by decide +kernel)⟩

end Verif.Props
