import Mathlib.Data.List.Basic

/-!
The versions of the ONNX operations, from /repo/src/Builder/OpBuildTable.inc: `op_dialect_version_map_` (7-217), `import_handler_map_`
(218-703) and `op_opsets_map_` (704-926), joined by the name of the operation.  A handler `NameV13` is `some 13`, a handler
`Name` is `none`.
-/

namespace Verif.Builder

/-- The entries of one operation (OpBuildTable.inc). -/
structure OpVersions where
  name : String
  /-- The versions in the dialect, newest first. -/
  supported : List ℕ
  /-- The versions in ONNX, newest first. -/
  opsets : List ℕ
  /-- The versions with a handler. -/
  handlers : List (Option ℕ)

/-- OpBuildTable.inc. -/
def opTable : List OpVersions := [
  ⟨"Abs", [13], [13, 6, 1], [none]⟩,
  ⟨"Acos", [22], [22, 7], [none]⟩,
  ⟨"Acosh", [22], [22, 9], [none]⟩,
  ⟨"Adagrad", [1], [1], [none]⟩,
  ⟨"Adam", [1], [1], [none]⟩,
  ⟨"Add", [14], [14, 13, 7, 6, 1], [none]⟩,
  ⟨"AffineGrid", [], [20], []⟩,
  ⟨"And", [7], [7, 1], [none]⟩,
  ⟨"ArgMax", [13], [13, 12, 11, 1], [none]⟩,
  ⟨"ArgMin", [13], [13, 12, 11, 1], [none]⟩,
  ⟨"ArrayFeatureExtractor", [1], [1], [none]⟩,
  ⟨"Asin", [22], [22, 7], [none]⟩,
  ⟨"Asinh", [22], [22, 9], [none]⟩,
  ⟨"Atan", [22], [22, 7], [none]⟩,
  ⟨"Atanh", [22], [22, 9], [none]⟩,
  ⟨"Attention", [24], [24, 23], [none]⟩,
  ⟨"AveragePool", [22], [22, 19, 11, 10, 7, 1], [none]⟩,
  ⟨"BatchNormalization", [15], [15, 14, 9, 7, 6, 1], [none]⟩,
  ⟨"Bernoulli", [22], [22, 15], [none]⟩,
  ⟨"Binarizer", [1], [1], [none]⟩,
  ⟨"BitCast", [], [26], []⟩,
  ⟨"BitShift", [11], [11], [none]⟩,
  ⟨"BitwiseAnd", [18], [18], [none]⟩,
  ⟨"BitwiseNot", [18], [18], [none]⟩,
  ⟨"BitwiseOr", [18], [18], [none]⟩,
  ⟨"BitwiseXor", [18], [18], [none]⟩,
  ⟨"BlackmanWindow", [17], [17], [none]⟩,
  ⟨"Cast", [21], [25, 24, 23, 21, 19, 13, 9, 6, 1], [none]⟩,
  ⟨"CastLike", [19], [25, 24, 23, 21, 19, 15], [none]⟩,
  ⟨"CastMap", [1], [1], [none]⟩,
  ⟨"CategoryMapper", [1], [1], [none]⟩,
  ⟨"Ceil", [13], [13, 6, 1], [none]⟩,
  ⟨"Celu", [12], [12], [none]⟩,
  ⟨"CenterCropPad", [18], [18], [none]⟩,
  ⟨"Clip", [13, 12, 11, 6], [13, 12, 11, 6, 1], [none, some 12, some 11, some 6]⟩,
  ⟨"Col2Im", [18], [18], [none]⟩,
  ⟨"Compress", [11], [11, 9], [none]⟩,
  ⟨"Concat", [13], [13, 11, 4, 1], [none]⟩,
  ⟨"ConcatFromSequence", [11], [11], [none]⟩,
  ⟨"Constant", [19], [25, 24, 23, 21, 19, 13, 12, 11, 9, 1], [none]⟩,
  ⟨"ConstantOfShape", [20], [25, 24, 23, 21, 20, 9], [none]⟩,
  ⟨"Conv", [22], [22, 11, 1], [none]⟩,
  ⟨"ConvInteger", [10], [10], [none]⟩,
  ⟨"ConvTranspose", [22], [22, 11, 1], [none]⟩,
  ⟨"Cos", [22], [22, 7], [none]⟩,
  ⟨"Cosh", [22], [22, 9], [none]⟩,
  ⟨"CumProd", [], [26], []⟩,
  ⟨"CumSum", [14], [14, 11], [none]⟩,
  ⟨"DFT", [20, 17], [20, 17], [none, some 17]⟩,
  ⟨"DeformConv", [22], [22, 19], [none]⟩,
  ⟨"DepthToSpace", [13], [13, 11, 1], [none]⟩,
  ⟨"DequantizeLinear", [19], [25, 24, 23, 21, 19, 13, 10], [none]⟩,
  ⟨"Det", [22], [22, 11], [none]⟩,
  ⟨"DictVectorizer", [1], [1], [none]⟩,
  ⟨"Div", [14], [14, 13, 7, 6, 1], [none]⟩,
  ⟨"Dropout", [22], [22, 13, 12, 10, 7, 6, 1], [none]⟩,
  ⟨"DynamicQuantizeLinear", [11], [11], [none]⟩,
  ⟨"Einsum", [12], [12], [none]⟩,
  ⟨"Elu", [22], [22, 6, 1], [none]⟩,
  ⟨"Equal", [19], [19, 13, 11, 7, 1], [none]⟩,
  ⟨"Erf", [13], [13, 9], [none]⟩,
  ⟨"Exp", [13], [13, 6, 1], [none]⟩,
  ⟨"Expand", [13], [13, 8], [none]⟩,
  ⟨"EyeLike", [22], [22, 9], [none]⟩,
  ⟨"FeatureVectorizer", [1], [1], [none]⟩,
  ⟨"Flatten", [21], [25, 24, 23, 21, 13, 11, 9, 1], [none]⟩,
  ⟨"Floor", [13], [13, 6, 1], [none]⟩,
  ⟨"GRU", [22], [22, 14, 7, 3, 1], [none]⟩,
  ⟨"Gather", [13], [13, 11, 1], [none]⟩,
  ⟨"GatherElements", [13], [13, 11], [none]⟩,
  ⟨"GatherND", [13], [13, 12, 11], [none]⟩,
  ⟨"Gelu", [20], [20], [none]⟩,
  ⟨"Gemm", [13], [13, 11, 9, 7, 6, 1], [none]⟩,
  ⟨"GlobalAveragePool", [22], [22, 1], [none]⟩,
  ⟨"GlobalLpPool", [2], [22, 2, 1], [none]⟩,
  ⟨"GlobalMaxPool", [22], [22, 1], [none]⟩,
  ⟨"Gradient", [1], [1], [none]⟩,
  ⟨"Greater", [13], [13, 9, 7, 1], [none]⟩,
  ⟨"GreaterOrEqual", [16], [16, 12], [none]⟩,
  ⟨"GridSample", [22, 16], [22, 20, 16], [none, some 16]⟩,
  ⟨"GroupNormalization", [21, 18], [21, 18], [none, some 18]⟩,
  ⟨"HammingWindow", [17], [17], [none]⟩,
  ⟨"HannWindow", [17], [17], [none]⟩,
  ⟨"HardSigmoid", [22], [22, 6, 1], [none]⟩,
  ⟨"HardSwish", [22], [22, 14], [none]⟩,
  ⟨"Hardmax", [13], [13, 11, 1], [none]⟩,
  ⟨"Identity", [21], [25, 24, 23, 21, 19, 16, 14, 13, 1], [none]⟩,
  ⟨"If", [21], [25, 24, 23, 21, 19, 16, 13, 11, 1], [none]⟩,
  ⟨"ImageDecoder", [], [20], []⟩,
  ⟨"Imputer", [1], [1], [none]⟩,
  ⟨"InstanceNormalization", [22], [22, 6, 1], [none]⟩,
  ⟨"IsInf", [20], [20, 10], [none]⟩,
  ⟨"IsNaN", [20], [20, 13, 9], [none]⟩,
  ⟨"LRN", [13], [13, 1], [none]⟩,
  ⟨"LSTM", [22], [22, 14, 7, 1], [none]⟩,
  ⟨"LabelEncoder", [2], [4, 2, 1], [none]⟩,
  ⟨"LayerNormalization", [17], [17], [none]⟩,
  ⟨"LeakyRelu", [16], [16, 6, 1], [none]⟩,
  ⟨"Less", [13], [13, 9, 7, 1], [none]⟩,
  ⟨"LessOrEqual", [16], [16, 12], [none]⟩,
  ⟨"LinearClassifier", [1], [1], [none]⟩,
  ⟨"LinearRegressor", [1], [1], [none]⟩,
  ⟨"Log", [13], [13, 6, 1], [none]⟩,
  ⟨"LogSoftmax", [13], [13, 11, 1], [none]⟩,
  ⟨"Loop", [21], [25, 24, 23, 21, 19, 16, 13, 11, 1], [none]⟩,
  ⟨"LpNormalization", [22], [22, 1], [none]⟩,
  ⟨"LpPool", [22], [22, 18, 11, 2, 1], [none]⟩,
  ⟨"MatMul", [13], [13, 9, 1], [none]⟩,
  ⟨"MatMulInteger", [10], [10], [none]⟩,
  ⟨"Max", [13], [13, 12, 8, 6, 1], [none]⟩,
  ⟨"MaxPool", [22], [22, 12, 11, 10, 8, 1], [none]⟩,
  ⟨"MaxRoiPool", [22], [22, 1], [none]⟩,
  ⟨"MaxUnpool", [22], [22, 11, 9], [none]⟩,
  ⟨"Mean", [13], [13, 8, 6, 1], [none]⟩,
  ⟨"MeanVarianceNormalization", [13], [13, 9], [none]⟩,
  ⟨"MelWeightMatrix", [17], [17], [none]⟩,
  ⟨"Min", [13], [13, 12, 8, 6, 1], [none]⟩,
  ⟨"Mish", [22], [22, 18], [none]⟩,
  ⟨"Mod", [13], [13, 10], [none]⟩,
  ⟨"Momentum", [1], [1], [none]⟩,
  ⟨"Mul", [14], [14, 13, 7, 6, 1], [none]⟩,
  ⟨"Multinomial", [22], [22, 7], [none]⟩,
  ⟨"Neg", [13], [13, 6, 1], [none]⟩,
  ⟨"NegativeLogLikelihoodLoss", [22], [22, 13, 12], [none]⟩,
  ⟨"NonMaxSuppression", [11], [11, 10], [none]⟩,
  ⟨"NonZero", [13], [13, 9], [none]⟩,
  ⟨"Normalizer", [1], [1], [none]⟩,
  ⟨"Not", [1], [1], [none]⟩,
  ⟨"OneHot", [11], [11, 9], [none]⟩,
  ⟨"OneHotEncoder", [1], [1], [none]⟩,
  ⟨"Optional", [15], [15], [none]⟩,
  ⟨"OptionalGetElement", [18], [18, 15], [none]⟩,
  ⟨"OptionalHasElement", [18], [18, 15], [none]⟩,
  ⟨"Or", [7], [7, 1], [none]⟩,
  ⟨"PRelu", [16], [16, 9, 7, 6, 1], [none]⟩,
  ⟨"Pad", [21, 18, 13, 11, 2], [25, 24, 23, 21, 19, 18, 13, 11, 2, 1], [none, some 18, some 13, some 11, some 2]⟩,
  ⟨"Pow", [15], [15, 13, 12, 7, 1], [none]⟩,
  ⟨"QLinearConv", [10], [10], [none]⟩,
  ⟨"QLinearMatMul", [10], [21, 10], [none]⟩,
  ⟨"QuantizeLinear", [19], [25, 24, 23, 21, 19, 13, 10], [none]⟩,
  ⟨"RMSNormalization", [], [23], []⟩,
  ⟨"RNN", [22], [22, 14, 7, 1], [none]⟩,
  ⟨"RandomNormal", [22], [22, 1], [none]⟩,
  ⟨"RandomNormalLike", [22], [22, 1], [none]⟩,
  ⟨"RandomUniform", [22], [22, 1], [none]⟩,
  ⟨"RandomUniformLike", [22], [22, 1], [none]⟩,
  ⟨"Range", [11], [11], [none]⟩,
  ⟨"Reciprocal", [13], [13, 6, 1], [none]⟩,
  ⟨"ReduceL1", [18, 13], [18, 13, 11, 1], [none, some 13]⟩,
  ⟨"ReduceL2", [18, 13], [18, 13, 11, 1], [none, some 13]⟩,
  ⟨"ReduceLogSum", [18, 13], [18, 13, 11, 1], [none, some 13]⟩,
  ⟨"ReduceLogSumExp", [18, 13], [18, 13, 11, 1], [none, some 13]⟩,
  ⟨"ReduceMax", [20, 18, 13], [20, 18, 13, 12, 11, 1], [none, some 18, some 13]⟩,
  ⟨"ReduceMean", [18, 13], [18, 13, 11, 1], [none, some 13]⟩,
  ⟨"ReduceMin", [20, 18, 13], [20, 18, 13, 12, 11, 1], [none, some 18, some 13]⟩,
  ⟨"ReduceProd", [18, 13], [18, 13, 11, 1], [none, some 13]⟩,
  ⟨"ReduceSum", [13, 11], [13, 11, 1], [none, some 11]⟩,
  ⟨"ReduceSumSquare", [18, 13], [18, 13, 11, 1], [none, some 13]⟩,
  ⟨"RegexFullMatch", [], [20], []⟩,
  ⟨"Relu", [14], [14, 13, 6, 1], [none]⟩,
  ⟨"Reshape", [21], [25, 24, 23, 21, 19, 14, 13, 5, 1], [none]⟩,
  ⟨"Resize", [19, 18, 13, 11, 10], [19, 18, 13, 11, 10], [none, some 18, some 13, some 11, some 10]⟩,
  ⟨"ReverseSequence", [10], [10], [none]⟩,
  ⟨"RoiAlign", [22], [22, 16, 10], [none]⟩,
  ⟨"RotaryEmbedding", [], [23], []⟩,
  ⟨"Round", [22], [22, 11], [none]⟩,
  ⟨"STFT", [17], [17], [none]⟩,
  ⟨"SVMClassifier", [1], [1], [none]⟩,
  ⟨"SVMRegressor", [1], [1], [none]⟩,
  ⟨"Scaler", [1], [1], [none]⟩,
  ⟨"Scan", [21], [25, 24, 23, 21, 19, 16, 11, 9, 8], [none]⟩,
  ⟨"Scatter", [11], [11, 9], [none]⟩,
  ⟨"ScatterElements", [18], [18, 16, 13, 11], [none]⟩,
  ⟨"ScatterND", [18], [18, 16, 13, 11], [none]⟩,
  ⟨"Selu", [22], [22, 6, 1], [none]⟩,
  ⟨"SequenceAt", [11], [11], [none]⟩,
  ⟨"SequenceConstruct", [11], [11], [none]⟩,
  ⟨"SequenceEmpty", [11], [11], [none]⟩,
  ⟨"SequenceErase", [11], [11], [none]⟩,
  ⟨"SequenceInsert", [11], [11], [none]⟩,
  ⟨"SequenceLength", [11], [11], [none]⟩,
  ⟨"SequenceMap", [17], [17], [none]⟩,
  ⟨"Shape", [21], [25, 24, 23, 21, 19, 15, 13, 1], [none]⟩,
  ⟨"Shrink", [9], [9], [none]⟩,
  ⟨"Sigmoid", [13], [13, 6, 1], [none]⟩,
  ⟨"Sign", [13], [13, 9], [none]⟩,
  ⟨"Sin", [22], [22, 7], [none]⟩,
  ⟨"Sinh", [22], [22, 9], [none]⟩,
  ⟨"Size", [21], [25, 24, 23, 21, 19, 13, 1], [none]⟩,
  ⟨"Slice", [13], [13, 11, 10, 1], [none]⟩,
  ⟨"Softmax", [13, 11], [13, 11, 1], [none, some 11]⟩,
  ⟨"SoftmaxCrossEntropyLoss", [13], [13, 12], [none]⟩,
  ⟨"Softplus", [22], [22, 1], [none]⟩,
  ⟨"Softsign", [22], [22, 1], [none]⟩,
  ⟨"SpaceToDepth", [13], [13, 1], [none]⟩,
  ⟨"Split", [18, 13, 11], [18, 13, 11, 2, 1], [none, some 13, some 11]⟩,
  ⟨"SplitToSequence", [11], [24, 11], [none]⟩,
  ⟨"Sqrt", [13], [13, 6, 1], [none]⟩,
  ⟨"Squeeze", [21, 11], [25, 24, 23, 21, 13, 11, 1], [none, some 11]⟩,
  ⟨"StringConcat", [], [20], []⟩,
  ⟨"StringNormalizer", [10], [10], [none]⟩,
  ⟨"StringSplit", [], [20], []⟩,
  ⟨"Sub", [14], [14, 13, 7, 6, 1], [none]⟩,
  ⟨"Sum", [13], [13, 8, 6, 1], [none]⟩,
  ⟨"Swish", [], [24], []⟩,
  ⟨"Tan", [22], [22, 7], [none]⟩,
  ⟨"Tanh", [13], [13, 6, 1], [none]⟩,
  ⟨"TensorScatter", [], [24], []⟩,
  ⟨"TfIdfVectorizer", [9], [9], [none]⟩,
  ⟨"ThresholdedRelu", [22], [22, 10], [none]⟩,
  ⟨"Tile", [13], [13, 6, 1], [none]⟩,
  ⟨"TopK", [11], [24, 11, 10, 1], [none]⟩,
  ⟨"Transpose", [21], [25, 24, 23, 21, 13, 1], [none]⟩,
  ⟨"TreeEnsemble", [], [5], []⟩,
  ⟨"TreeEnsembleClassifier", [1], [5, 3, 1], [none]⟩,
  ⟨"TreeEnsembleRegressor", [1], [5, 3, 1], [none]⟩,
  ⟨"Trilu", [14], [14], [none]⟩,
  ⟨"Unique", [11], [11], [none]⟩,
  ⟨"Unsqueeze", [21, 11], [25, 24, 23, 21, 13, 11, 1], [none, some 11]⟩,
  ⟨"Upsample", [10, 7], [10, 9, 7, 1], [none, some 7]⟩,
  ⟨"Where", [16], [16, 9], [none]⟩,
  ⟨"Xor", [7], [7, 1], [none]⟩,
  ⟨"ZipMap", [1], [1], [none]⟩]

end Verif.Builder
