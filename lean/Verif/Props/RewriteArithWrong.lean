import Verif.Props.RewriteArith

/-! # C89: rewrites that use laws of arithmetic and change results -/

namespace Verif.Props

open Verif.Rewrite

/-- Arguments 0, 1, 2, ... have the given shapes and the elements 1, 2, 3, ... -/
def qShapes (l : List (List ℕ)) (i : ℕ) : Tensor ℚ := qiota (l.getD i [])
def qAt (i : ℕ) (s : List ℕ) : Ex ℚ := .arg i (.static s f32)

/-- A 1 by 3 matrix times a 3 by 4 matrix plus a 2 by 4 matrix is 2 by 4: Gemm cannot stretch the product. -/
theorem C89_gemm_false : ∃ env e, BreaksIn qAlg (mulAddToGemm fun _ => true) env e :=
  ⟨qShapes [[1, 3], [3, 4], [2, 4]], qU (.binary .add) [qU .matmul [qAt 0 [1, 3], qAt 1 [3, 4]], qAt 2 [2, 4]],
    breaksIn_of (by decide +kernel)⟩

/-- The same for a Gemm plus a tensor with three axes. -/
theorem C89_gemm_add_false : ∃ env e, BreaksIn qAlg (fuseGemmAdd fun _ => true) env e :=
  ⟨qShapes [[2, 3], [3, 4], [5, 2, 4]],
    qU (.binary .add) [qU (.gemm 1 1 0 0) [qAt 0 [2, 3], qAt 1 [3, 4], .none], qAt 2 [5, 2, 4]],
    breaksIn_of (by decide +kernel)⟩

/-- A number added to a convolution with three channels: the new bias has one element instead of three. A constant with
three channels added to a convolution with one: the new bias has three elements instead of one. -/
theorem C89_conv_add_false : (∃ env e, BreaksIn qAlg (fuseAddConvNullBias qAlg) env e) ∧
    ∃ env e, BreaksIn qAlg (fuseAddConvNullBias qAlg) env e ∧ e.ty = .static [1, 3, 3, 3] f32 :=
  ⟨⟨qEnv, .op (.binary .add) [qConv .none, qConst [1, 1, 1]] (.static [1, 3, 3, 3] f32), breaksIn_of (by decide +kernel)⟩,
    qEnv, .op (.binary .add) [.op (.conv (qWin none)) [qArg 3, qConst [1, 2, 3, 3], .none] (.static [1, 1, 3, 3] f32),
      qConst [3, 1, 1]] (.static [1, 3, 3, 3] f32), breaksIn_of (by decide +kernel), rfl⟩

/-- A constant with three channels added to a convolution with one channel and a bias. -/
theorem C89_conv_add_bias_false : ∃ env e, BreaksIn qAlg (fuseAddConv qAlg) env e :=
  ⟨qEnv, .op (.binary .add) [.op (.conv (qWin none)) [qArg 3, qConst [1, 2, 3, 3], qConst [1]] (.static [1, 1, 3, 3] f32),
      qConst [3, 1, 1]] (.static [1, 3, 3, 3] f32), breaksIn_of (by decide +kernel)⟩

/-- The product of two vectors times a vector of one element loses its axis. -/
theorem C89_matmul_scale_false : ∃ env e, BreaksIn qAlg fuseScalarMulMatMul env e :=
  ⟨qShapes [[3]], qU (.binary .mul) [qU .matmul [qAt 0 [3], qConst [3]], qConst [1]], breaksIn_of (by decide +kernel)⟩

/-- With integers, (1 * 1 + 2 * 2 + 3 * 3) / 2 is 7, but 1 * (1 / 2) + 2 * (2 / 2) + 3 * (3 / 2) is 5. -/
theorem C89_matmul_div_false : ∃ env e, Breaks fuseScalarDivMatMul env e :=
  ⟨fun _ => iota [3], .op (.binary .div) [.op .matmul [.arg 0 (.static [3] i64), .const (iota [3]) i64] (.static [] i64),
    .const (scalar 2) i64] (.static [] i64), breaks_of (by decide +kernel)⟩

/-- Parameters of 64 bits with data of 32 bits, which ONNX allows: the new multiplication has operands of two types. -/
theorem C89_batchnorm_types_false : ∃ env e, MistypesIn qAlg (rewriteBatchNorm1 qAlg) env e := by
  refine ⟨qEnv, qU (.batchNorm (1/100)) [qArg 3, .arg 4 (.static [2] ⟨.float, 64⟩), .arg 4 (.static [2] ⟨.float, 64⟩),
    .arg 4 (.static [2] ⟨.float, 64⟩), .arg 4 (.static [2] ⟨.float, 64⟩)], _, rfl, typedB_typed (by decide +kernel),
    ⟨_, rfl⟩, ?_⟩
  intro h
  have h1 := (typedL_cons.1 (typed_op.1 h).2.2).1
  have h2 := (typed_op.1 h1).2.1
  revert h2
  decide

/-- Weights of unknown rank make the compiler crash. -/
theorem C89_conv_batchnorm_false : ∃ env e, Crashes (fuseBatchNormConv zAlg) env e :=
  ⟨fun i => if i = 0 then iota [1, 2, 3, 3] else if i = 1 then iota [2, 2, 2, 2] else iota [2],
    let p : Ex ℤ := .arg 2 (.static [2] f32)
    .op (.batchNorm 1) [.op (.conv ⟨"NOTSET", false, none, 1, none, none, none⟩)
      [.arg 0 (.static [1, 2, 3, 3] f32), .arg 1 (.unranked f32), .none] (.unranked f32), p, p, p, p] (.unranked f32),
    crashes_of (by decide +kernel)⟩

/-- Clip to [2, 5] and then to [7, 8] gives 7 everywhere; the single Clip to [7, 5] gives 5. -/
theorem C89_clips_false : ∃ env e, BreaksIn qAlg fuseClips env e :=
  ⟨qEnv, qClips (qSc 7) (qSc 8), breaksIn_of (by decide +kernel)⟩

/-- 1/2 is less than 3/4, but after a conversion to integers both are 0. -/
theorem C89_less_cast_false : ∃ env e, BreaksIn qAlg lessSameCast env e :=
  ⟨fun i => if i = 0 then scalar (1/2) else scalar (3/4), .op (.binary .less) [.op (.cast 1 i32) [qAt 0 []] (.unranked i32),
    .op (.cast 1 i32) [qAt 1 []] (.unranked i32)] (.unranked ⟨.bool, 1⟩), breaksIn_of (by decide +kernel)⟩

/-- A vector to the power of a 1 by 1 matrix is a matrix; the product is a vector. -/
theorem C89_pow_false : ∃ env e, BreaksIn qAlg (powToMul qAlg 16) env e :=
  ⟨qShapes [[3]], qU (.binary .pow) [qAt 0 [3], .const ⟨[1, 1], [2], rfl⟩ f32], breaksIn_of (by decide +kernel)⟩

/-- A power with exponent 0 and a shape that is not known makes the compiler crash. -/
theorem C89_pow_zero_false : ∃ env e, Crashes (powToMul zAlg 16) env e :=
  ⟨fun _ => iota [3], .op (.binary .pow) [.arg 0 ⟨some [none], f32⟩, .const (scalar 0) f32] ⟨some [none], f32⟩,
    crashes_of (by decide +kernel)⟩

/-- The last extents of the data and of the matrix are both unknown, and different at run time. -/
theorem C89_reshape_matmul_false : ∃ env e, BreaksIn qAlg (swapReshapeMatMul qAlg) env e :=
  ⟨qShapes [[2, 3, 2], [3, 4]], .op .matmul [.op (.reshape 0) [.arg 0 ⟨some [some 2, some 3, none], f32⟩,
      .const (ofInts qAlg [4, 3]) i64] ⟨some [some 4, none], f32⟩, qAt 1 [3, 4]] (.static [4, 4] f32),
    breaksIn_of (by decide +kernel)⟩

/-- The recorded extent 0 of the result copies an extent of the new product. -/
theorem C89_reshape_matmul_empty_false : ∃ env e, BreaksIn qAlg (swapReshapeMatMul qAlg) env e :=
  ⟨qShapes [[2, 0, 3], [3, 4]], .op .matmul [.op (.reshape 0) [qAt 0 [2, 0, 3],
      .const (ofInts qAlg [-1, 3]) i64] (.static [0, 3] f32), qAt 1 [3, 4]] (.static [0, 4] f32),
    breaksIn_of (by decide +kernel)⟩

/-- A 2 by 3 matrix added to a normalized 1 by 3 matrix cannot be its bias. -/
theorem C89_layernorm_bias_false : ∃ env e, BreaksIn qAlg (biasIntoLayerNorm fun _ => true) env e :=
  ⟨qShapes [[1, 3]], qU (.binary .add) [qU (.layerNorm (-1) (1/100)) [qAt 0 [1, 3], qConst [3], .none], qConst [2, 3]],
    breaksIn_of (by decide +kernel)⟩

/-- GroupNormalization of version 21 with 6 channels in 3 groups: the 6 parameters are reshaped to 3 by 3. -/
theorem C89_groupnorm_false : ∃ env e, BreaksIn qAlg (removeGroupNorm qAlg) env e :=
  ⟨qShapes [[1, 6, 2], [6]], .op (.groupNorm false 3 (1/100)) [qAt 0 [1, 6, 2], qAt 1 [6], qAt 1 [6]]
    (.static [1, 6, 2] f32), breaksIn_of (by decide +kernel)⟩

end Verif.Props
