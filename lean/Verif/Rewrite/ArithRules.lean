import Verif.Rewrite.DimRules

/-!
# Canonicalization patterns that use laws of arithmetic (model)

Source: /repo/src/Dialect/ONNX/ONNXOps/Canonicalize.td 297-452, 742-789, 893-1003, 1083-1112, Canonicalize.cpp 45-92,
145-165, 1187-1238, 2046-2103, 2216-2430, OpHelper.cpp 188-196, 874-897. New values whose type the pattern does not
state get an unranked type here.
-/

namespace Verif.Rewrite

variable {V : Type}

/-- `IsFromONNXConstantOp`. -/
def isConst : Ex V → Bool
  | .const _ _ => true
  | _ => false

/-- The static rank. -/
def rank? (e : Ex V) : Option ℕ := e.ty.dims.map List.length

/-- `createDenseElementsAttrOfNToM`, Canonicalize.cpp 60-66: the integers from `n` to `m`. -/
def nToM (n m : ℕ) : List ℤ := (List.range (m + 1 - n)).map fun i => ((n + i : ℕ) : ℤ)

/-- A constant vector of 64-bit integers. -/
def intsConst (A : Alg V) (l : List ℤ) : Ex V := .const (ofInts A l) i64

/-- A new operation of unranked type. -/
def mk (o : Op) (args : List (Ex V)) (d : DT) : Ex V := .op o args (.unranked d)

/-! ### Gemm -/

/-- `MulAddToGemmOptPattern`, Canonicalize.td 306-308. `oneUse` tells whether a value has one use. -/
def mulAddToGemm (oneUse : Ex V → Bool) : Ex V → Outcome V
  | .op (.binary .add) [.op .matmul [a, b] mty, c] ty =>
    if oneUse (.op .matmul [a, b] mty) && rank? a = some 2 && rank? b = some 2 then
      .into (.op (.gemm 1 1 0 0) [a, b, c] ty)
    else .skip
  | _ => .skip

/-- `FuseGemmFollowedByAddition`, Canonicalize.td 311-313. -/
def fuseGemmAdd (oneUse : Ex V → Bool) : Ex V → Outcome V
  | .op (.binary .add) [.op (.gemm alpha beta ta tb) [a, b, .none] gty, c] ty =>
    if oneUse (.op (.gemm alpha beta ta tb) [a, b, .none] gty) then
      .into (.op (.gemm alpha 1 ta tb) [a, b, c] ty)
    else .skip
  | _ => .skip

/-- `NormalizeAddPattern` and `NormalizeMulPattern`, Canonicalize.td 331-335, 398-402. -/
def normalizeComm (f : Bin) : Ex V → Outcome V
  | .op (.binary g) [x, y] ty =>
    if f = g && isConst x && !isConst y then .into (.op (.binary g) [y, x] ty) else .skip
  | _ => .skip

/-! ### Conv -/

/-- All extents from axis 1 on are 1 (`AllDimsFromAxisToEndAre<1, 1>`). -/
def onesFrom1 (s : List ℕ) : Bool := (s.drop 1).all (· = 1)

/-- `FuseAddConvNullBiasPattern`, Canonicalize.td 337-357. -/
def fuseAddConvNullBias (A : Alg V) : Ex V → Outcome V
  | .op (.binary .add) [.op (.conv w) [x, k, .none] _, .const y d] ty =>
    if ty.dims.map List.length = some (y.shape.length + 1) && 0 < y.shape.length && onesFrom1 y.shape then
      .into (.op (.conv w) [x, k, mk .squeeze [.const y d, intsConst A (nToM 1 (y.shape.length - 1))] d] ty)
    else .skip
  | _ => .skip

/-- `FuseAddConvPattern`, Canonicalize.td 359-380. -/
def fuseAddConv (A : Alg V) : Ex V → Outcome V
  | .op (.binary .add) [.op (.conv w) [x, k, b] _, .const y d] ty =>
    match b with
    | .none => .skip
    | b =>
      if ty.dims.map List.length = some (y.shape.length + 1) && 0 < y.shape.length && onesFrom1 y.shape then
        .into (.op (.conv w) [x, k, mk (.binary .add) [b,
          mk .squeeze [.const y d, intsConst A (nToM 1 (y.shape.length - 1))] d] b.ty.elt] ty)
      else .skip
  | _ => .skip

/-- `FuseMulConvNullBiasPattern`, Canonicalize.td 404-429. -/
def fuseMulConvNullBias (A : Alg V) : Ex V → Outcome V
  | .op (.binary .mul) [.op (.conv a) [x, .const w wd, .none] _, .const y d] ty =>
    if wd = d && 1 < w.shape.length && w.shape.length = y.shape.length + 1 &&
        w.shape.headD 0 = y.shape.headD 0 && 0 < y.shape.length && onesFrom1 y.shape then
      .into (.op (.conv a) [x, mk (.binary .mul) [.const w wd,
        mk .unsqueeze [.const y d, intsConst A [(y.shape.length : ℤ)]] d] wd, .none] ty)
    else .skip
  | _ => .skip

/-! ### Scaling of MatMul by a scalar -/

/-- `FuseScalarMulMatMulPattern`, Canonicalize.td 446-450 (`either`: in both orders). -/
def fuseScalarMulMatMul : Ex V → Outcome V
  | .op (.binary .mul) [.op .matmul [a, b] _, c] ty =>
    if isConst b && isScalarConst c then
      .into (.op .matmul [a, mk (.binary .mul) [b, c] b.ty.elt] ty)
    else .skip
  | .op (.binary .mul) [c, .op .matmul [a, b] _] ty =>
    if isConst b && isScalarConst c then
      .into (.op .matmul [a, mk (.binary .mul) [b, c] b.ty.elt] ty)
    else .skip
  | _ => .skip

/-- `FuseScalarDivMatMulPattern`, Canonicalize.td 452-456. -/
def fuseScalarDivMatMul : Ex V → Outcome V
  | .op (.binary .div) [.op .matmul [a, b] _, c] ty =>
    if isConst b && isScalarConst c then
      .into (.op .matmul [a, mk (.binary .div) [b, c] b.ty.elt] ty)
    else .skip
  | _ => .skip

/-! ### BatchNormalization -/

/-- `createDenseElementsAttrFromFloatAttr`: a vector with one element, of the element type of the result. -/
def floatConst (A : Alg V) (q : ℚ) (d : DT) : Ex V := .const ⟨[1], [A.ofRat q], rfl⟩ d

/-- `scale / sqrt(var + epsilon)`. -/
def bnCoef (A : Alg V) (eps : ℚ) (scale var : Ex V) (d : DT) : Ex V :=
  mk (.binary .div) [scale, mk (.unary "Sqrt" []) [mk (.binary .add) [var, floatConst A eps d] var.ty.elt]
    var.ty.elt] scale.ty.elt

/-- `subtractOrNeg`, Canonicalize.cpp 45-49. -/
def subtractOrNeg (a b : Ex V) : Ex V :=
  match a with
  | .none => mk (.unary "Neg" []) [b] b.ty.elt
  | a => mk (.binary .sub) [a, b] a.ty.elt

/-- `FuseBatchNormInferenceModeConvPattern`, Canonicalize.td 893-923. Asking for the rank of a weight of unknown rank
fails an assertion. -/
def fuseBatchNormConv (A : Alg V) : Ex V → Outcome V
  | .op (.batchNorm eps) [.op (.conv a) [x, w, b] _, scale, bias, mean, var] ty =>
    match rank? w with
    | none => .crash
    | some r =>
      .into (.op (.conv a) [x,
        mk (.binary .mul) [w, mk .unsqueeze [bnCoef A eps scale var ty.elt, intsConst A (nToM 1 (r - 1))]
          scale.ty.elt] w.ty.elt,
        mk (.binary .add) [bias, mk (.binary .mul) [bnCoef A eps scale var ty.elt, subtractOrNeg b mean]
          scale.ty.elt] bias.ty.elt] ty)
  | _ => .skip

/-- `RewriteBatchNormInferenceModeConvPattern1`, Canonicalize.td 941-964. -/
def rewriteBatchNorm1 (A : Alg V) : Ex V → Outcome V
  | .op (.batchNorm eps) [x, scale, bias, mean, var] ty =>
    match rank? x with
    | none => .skip
    | some r =>
      if 2 < r then
        .into (.op (.binary .add) [
          mk (.binary .mul) [x, mk .unsqueeze [bnCoef A eps scale var ty.elt, intsConst A (nToM 1 (r - 2))]
            scale.ty.elt] x.ty.elt,
          mk .unsqueeze [mk (.binary .sub) [bias, mk (.binary .mul) [mean, bnCoef A eps scale var ty.elt]
            mean.ty.elt] bias.ty.elt, intsConst A (nToM 1 (r - 2))] bias.ty.elt] ty)
      else .skip
  | _ => .skip

/-- `RewriteBatchNormInferenceModeConvPattern2`, Canonicalize.td 970-988. -/
def rewriteBatchNorm2 (A : Alg V) : Ex V → Outcome V
  | .op (.batchNorm eps) [x, scale, bias, mean, var] ty =>
    if rank? x = some 1 then
      .into (.op (.binary .add) [
        mk (.binary .mul) [x, bnCoef A eps scale var ty.elt] x.ty.elt,
        mk (.binary .sub) [bias, mk (.binary .mul) [mean, bnCoef A eps scale var ty.elt] mean.ty.elt]
          bias.ty.elt] ty)
    else .skip
  | _ => .skip

/-! ### Clip, Less, Pow, MaxPool -/

/-- `maxOrDefault` and `minOrDefault`, Canonicalize.cpp 145-165. -/
def combineOr (f : Bin) (a b : Ex V) : Ex V :=
  match a, b with
  | .none, b => b
  | a, .none => a
  | a, b => .op (.binary f) [a, b] a.ty

/-- `FuseConsecutiveClipsPattern`, Canonicalize.td 1105-1112. -/
def fuseClips : Ex V → Outcome V
  | .op .clip [.op .clip [x, lo1, hi1] _, lo2, hi2] ty =>
    .into (.op .clip [x, combineOr .max lo1 lo2, combineOr .min hi1 hi2] ty)
  | _ => .skip

/-- `LessOpSameCastPattern`, Canonicalize.td 1083-1089. -/
def lessSameCast : Ex V → Outcome V
  | .op (.binary .less) [.op (.cast s1 d1) [a] cty, .op (.cast s2 d2) [b] _] ty =>
    if a.ty.elt = b.ty.elt && s1 = s2 && d1 = d2 && a.ty.elt.bits = cty.elt.bits && cty.elt.kind ≠ .uint then
      .into (.op (.binary .less) [a, b] ty)
    else .skip
  | _ => .skip

/-- `hasIntegerPowerExponent`, OpHelper.cpp 874-897: the only element of a constant, when it is an integer. -/
def intExponent [DecidableEq V] (A : Alg V) : Ex V → Option ℤ
  | .const t _ =>
    match t.data with
    | [v] => if A.ofInt (A.toInt v) = v then some (A.toInt v) else none
    | _ => none
  | _ => none

/-- `result = result ? mul(result, x) : x`. -/
def mulOr (ty : STy) (r : Option (Ex V)) (x : Ex V) : Ex V :=
  match r with
  | some r => .op (.binary .mul) [r, x] ty
  | none => x

/-- The loop of repeated squaring, Canonicalize.cpp 1221-1230; `fuel` bounds the number of rounds by the exponent. -/
def powLoop (ty : STy) : ℕ → ℕ → Option (Ex V) → Ex V → Option (Ex V)
  | 0, _, r, _ => r
  | fuel + 1, n, r, x =>
    let r := if n % 2 = 1 then some (mulOr ty r x) else r
    if n / 2 = 0 then r else powLoop ty fuel (n / 2) r (.op (.binary .mul) [x, x] ty)

/-- `PowToMulRewritePattern`, Canonicalize.cpp 1187-1238. A constant of a type that is not static cannot be built:
the compiler stops. -/
def powToMul [DecidableEq V] (A : Alg V) (maxPower : ℤ) : Ex V → Outcome V
  | .op (.binary .pow) [x, y] ty =>
    match intExponent A y with
    | none => .skip
    | some n =>
      if n < 0 ∨ maxPower < n then .skip
      else if n = 0 then
        match ty.dims with
        | some ds => if ds.all Option.isSome then
            .into (.const (build (ds.map fun d => d.getD 0) fun _ => A.ofInt 1) ty.elt)
          else .crash
        | none => .crash
      else match powLoop ty n.toNat n.toNat none x with
        | some r => .into r
        | none => .crash
  | _ => .skip

/-- `isNotConvProducer`, Canonicalize.cpp 86-91. -/
def notConv : Ex V → Bool
  | .op (.conv _) _ _ => false
  | _ => true

/-- `HasStaticShape`. -/
def staticShape (ty : STy) : Bool :=
  match ty.dims with
  | some ds => ds.all Option.isSome
  | none => false

/-- `ReorderReluMaxPoolPattern`, Canonicalize.td 769-789. -/
def reorderReluMaxPool : Ex V → Outcome V
  | .op (.maxPool w) [.op (.unary n as) [x] _] ty =>
    if n = "Relu" && as = [] && rank? x = some 4 &&
        staticShape ty && notConv x then
      .into (.op (.unary n as) [mk (.maxPool w) [x] x.ty.elt] ty)
    else .skip
  | _ => .skip

/-! ### MatMul of a Reshape -/

/-- `SwapReshapeMatMulPattern`, Canonicalize.td 742-757, Canonicalize.cpp 69-78. Unknown extents count as equal. -/
def swapReshapeMatMul (A : Alg V) : Ex V → Outcome V
  | .op .matmul [.op (.reshape az) [a, _] rty, b] ty =>
    match a.ty.dims, rty.dims, b.ty.dims, ty.dims with
    | some da, some dr, some db, some ds =>
      if 2 < da.length && dr.length = 2 && db.length = 2 && da.getLastD none = dr.getLastD none &&
          ds.all Option.isSome then
        .into (.op (.reshape az) [.op .matmul [a, b] ⟨some (da.dropLast ++ [db.getLastD none]), a.ty.elt⟩,
          intsConst A (ds.map fun d => ((d.getD 0 : ℕ) : ℤ))] ty)
      else .skip
    | _, _, _, _ => .skip
  | _ => .skip

/-! ### LayerNormalization, InstanceNormalization, GroupNormalization -/

/-- `PropagateBiasIntoLayerNormRewritePattern`, Canonicalize.cpp 2046-2096. The result gets the type of `x`. -/
def biasIntoLayerNorm (oneUse : Ex V → Bool) : Ex V → Outcome V
  | .op (.binary .add) [.op (.layerNorm ax eps) [x, s, b] nty, c] _ =>
    if oneUse (.op (.layerNorm ax eps) [x, s, b] nty) then
      match b with
      | .none => .into (.op (.layerNorm ax eps) [x, s, c] x.ty)
      | _ => .skip
    else .skip
  | .op (.binary .add) [c, .op (.layerNorm ax eps) [x, s, b] nty] _ =>
    if oneUse (.op (.layerNorm ax eps) [x, s, b] nty) then
      match b with
      | .none => .into (.op (.layerNorm ax eps) [x, s, c] x.ty)
      | _ => .skip
    else .skip
  | _ => .skip

/-- `RemoveInstanceNormPattern`, Canonicalize.cpp 2216-2260. -/
def removeInstanceNorm (A : Alg V) : Ex V → Outcome V
  | .op (.instanceNorm eps) [x, s, b] ty =>
    match x.ty.dims with
    | none => .skip
    | some ds =>
      if 2 < ds.length then
        let nty : STy := ⟨some (ds.getD 1 none :: List.replicate (ds.length - 2) (some 1)), x.ty.elt⟩
        let axes := intsConst A (nToM 1 (ds.length - 2))
        .into (.op (.layerNorm 2 eps) [x, .op .unsqueeze [s, axes] nty, .op .unsqueeze [b, axes] nty] ty)
      else .crash
  | _ => .skip

/-- The new scale and bias of `ONNXGroupNormalizationCommon`, Canonicalize.cpp 2304-2357: version 18 inserts axes,
version 21 reshapes to `NG x NG x 1 ...`. -/
def groupParam (A : Alg V) (v18 : Bool) (ng : ℕ) (ds : List (Option ℕ)) (d : DT) (s : Ex V) : Ex V :=
  if v18 then
    .op .unsqueeze [s, intsConst A (nToM 1 (ds.length - 1))]
      ⟨some (some ng :: List.replicate (ds.length - 1) (some 1)), d⟩
  else
    .op (.reshape 0) [s, .op (.concat 0) [intsConst A [(ng : ℤ)], intsConst A [(ng : ℤ)],
        intsConst A (List.replicate (ds.length - 2) 1)] ⟨some [some ds.length], i64⟩]
      ⟨some (some ng :: (ds.getD 1 none).map (· / ng) :: List.replicate (ds.length - 2) (some 1)), d⟩

/-- `ONNXGroupNormalizationCommon`, Canonicalize.cpp 2269-2407. -/
def removeGroupNorm (A : Alg V) : Ex V → Outcome V
  | .op (.groupNorm v18 ng eps) [x, s, b] ty =>
    match x.ty.dims with
    | none => .skip
    | some ds =>
      if 2 < ds.length then
        if (ds.getD 1 none).any (· % ng ≠ 0) then .crash
        else
          let lnTy : STy := ⟨some (ds.getD 0 none :: some ng :: (ds.getD 1 none).map (· / ng) :: ds.drop 2), x.ty.elt⟩
          let lnShape := .op (.concat 0) [.op (.shape 0 (some 1)) [x] ⟨some [some 1], i64⟩,
            intsConst A [(ng : ℤ), -1], .op (.shape 2 none) [x] ⟨some [some (ds.length - 2)], i64⟩]
            ⟨some [some (ds.length + 1)], i64⟩
          .into (.op (.reshape 0) [.op (.layerNorm 2 eps) [.op (.reshape 0) [x, lnShape] lnTy,
              groupParam A v18 ng ds x.ty.elt s, groupParam A v18 ng ds x.ty.elt b] lnTy,
            .op (.shape 0 none) [x] ⟨some [some ds.length], i64⟩] ty)
      else .crash
  | _ => .skip

end Verif.Rewrite
