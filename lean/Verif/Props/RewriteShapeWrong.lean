import Verif.Props.RewriteShape

/-! # C87: rearranging rewrites that change results -/

namespace Verif.Props

open Verif.Rewrite

/-- Transpose, IsNaN, Transpose: the new IsNaN gets the type of its operand. -/
theorem C87_fuse_transpose_isnan_false : ∃ env e, Mistypes fuseTransposeUnary env e := by
  refine ⟨exEnv, exTr [1, 2, 0] (.op (.unary "IsNaN" []) [exTr [2, 1, 0] exX]
    (.unranked ⟨.bool, 1⟩)), _, rfl, typedB_typed (by decide +kernel), ?_, ?_⟩
  · exact ⟨_, rfl⟩
  · intro h
    have := (typed_op.1 (typedL_cons.1 (typed_op.1 h).2.2).1).2.1
    revert this
    decide

/-- Transpose, Cast, Transpose: the new Cast gets the type of its operand. -/
theorem C87_fuse_transpose_cast_false : ∃ env e, Mistypes fuseTransposeCast env e := by
  refine ⟨exEnv, exTr [1, 2, 0] (.op (.cast 1 i64) [exTr [2, 1, 0] exX] (.unranked i64)), _, rfl,
    typedB_typed (by decide +kernel), ?_, ?_⟩
  · exact ⟨_, rfl⟩
  · intro h
    have := (typed_op.1 (typedL_cons.1 (typed_op.1 h).2.2).1).2.1
    revert this
    decide

/-- A transpose without permutation below another one makes the compiler crash. -/
theorem C87_fuse_transpose_null_false : ∃ env, ∃ e : Ex ℤ, fuseTranspose e = .crash ∧
    Typed zAlg env e ∧ ∃ t, eval zAlg env e = some (some t) :=
  ⟨exEnv, exTr [1, 2, 0] (.op (.transpose none) [exX] (.unranked f32)), rfl,
    typedB_typed (by decide +kernel), _, rfl⟩

/-- Unsqueeze at [-1, -2] followed by Squeeze at [-1, 0] of a 1 by 3 matrix gives 3 by 1, not the matrix. -/
theorem C87_squeeze_unsqueeze_false : ∃ env e, Breaks (removeSqueezeUnsqueeze zAlg) env e :=
  ⟨fun _ => iota [1, 3], .op .squeeze [.op .unsqueeze [.arg 0 (.static [1, 3] f32), cvec [-1, -2]]
    (.static [1, 3, 1, 1] f32), cvec [-1, 0]] (.static [3, 1] f32), breaks_of (by decide +kernel)⟩

/-- Squeeze at -1 followed by Unsqueeze at 0 of a 3 by 1 matrix gives 1 by 3. -/
theorem C87_unsqueeze_squeeze_false : ∃ env e, Breaks (removeUnsqueezeSqueeze zAlg) env e :=
  ⟨fun _ => iota [3, 1], .op .unsqueeze [.op .squeeze [.arg 0 (.static [3, 1] f32), cvec [-1]]
    (.static [3] f32), cvec [0]] (.static [1, 3] f32), breaks_of (by decide +kernel)⟩

/-- The first shape is (a, 3) with a = -1 at run time, the second is (0, -1): the fused shape has two
entries -1. -/
theorem C87_fuse_reshape_false : ∃ env e, Breaks (fuseTwoReshapes zAlg) env e :=
  ⟨fun i => if i = 0 then iota [3, 2] else ofInts zAlg [-1],
    exRe (exRe (.arg 0 (.static [3, 2] f32))
      (.op (.concat 0) [.arg 1 (.static [1] i64), cvec [3]] (.static [2] i64))) (cvec [0, -1]),
    breaks_of (by decide +kernel)⟩

/-- Reshape with `allowzero` of a 2 by 0 matrix to 5 by 0 where the 5 is known only at run time and only the
0 is recorded. -/
theorem C87_identity_reshape_false : ∃ env e, Breaks removeIdentityReshape env e :=
  ⟨fun i => if i = 0 then ⟨[2, 0], [], rfl⟩ else ofInts zAlg [5, 0],
    .op (.reshape 1) [.arg 0 ⟨some [none, some 0], f32⟩, .arg 1 (.static [2] i64)]
      ⟨some [none, some 0], f32⟩, breaks_of (by decide +kernel)⟩

/-- Reshape with `allowzero` of a 0 by 3 matrix to 3 by 0: without it the 0 stands for 3. -/
theorem C87_reshape_allowzero_false : ∃ env e, Breaks rewriteReshapeAllowZero env e :=
  ⟨fun _ => ⟨[0, 3], [], rfl⟩, .op (.reshape 1) [.arg 0 (.static [0, 3] f32), cvec [3, 0]]
    (.static [3, 0] f32), breaks_of (by decide +kernel)⟩

end Verif.Props
