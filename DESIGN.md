# Formal model of onnx-mlir in Lean 4

This document says what is modelled, how each property in `properties.jsonl` is
proved, and what is trusted.

## Trusted base

* Lean 4.33.0's kernel.
* The standard axioms `propext`, `Classical.choice` and `Quot.sound`. No other axiom
  is used: there is no `sorry`, `admit`, `native_decide` or `bv_decide`, and no axiom
  is declared in this project. `lean/Verif/Audit.lean` prints the axioms of the
  property theorems when it is built.
* The hand translation from C/C++ to Lean. Every definition cites the file and lines
  it models and says what it simplifies.
* Fixed-width integers are modelled by `Nat`/`Int` where a theorem shows or assumes
  that values stay in range, and by `BitVec` where wrap-around matters.
* Memory is modelled by lists and finite maps. An out-of-range access, a double free
  or a division by zero is a separate outcome (`none` or an error constructor), never
  a default value.

## How the model is organised

* `Verif/Base`: shapes, indices and row-major order. This is the shared specification
  vocabulary.
* `Verif/<Area>/Model.lean`: the model of the code.
* `Verif/<Area>/Lemmas*.lean`: helper lemmas.
* `Verif/Props/<Area>.lean`: specification, property theorems and a concrete instance
  beside each theorem.

## Plan per property

| Property | What is modelled | How it is proved |
|---|---|---|
| C01, C02 | stride computation, offset, index-set product of `OMTensor.inc` | induction on the shape; bijection with `Fin n` through the row-major spec |
| C03, C04 | heap of allocations, tensors, lists; one transition per API call | invariant over all call histories |
| C05 | elementwise comparison loop over rationals | equivalence with the quantified specification |
| C06, C07 | Lomuto partition and explicit-stack quicksort with an arbitrary pivot oracle | loop invariants; stack depth bounded by log2 of the pending size |
| C08 | heap sift-down, make-heap, selection loop | heap invariant; the full claim is false on ties (witness), partial theorem for the value multiset |
| C09 | slice table registration loop | invariant over the prefix processed |
| C10, C11 | FNV hash on `BitVec 32`, bucket placement, lookup | soundness of every finished run; divergence witness for C11 |
| C12, C13, C42 | chunked read loop over an arbitrary read oracle; load/unload state machine; packing of the constants file | induction on the read schedule and on histories; round trip |
| C14 - C18, C43 | bit-level conversions on `BitVec` / `Nat` with an exact rational meaning | arithmetic on mantissas; whole-domain tables checked by the kernel where finite |
| C19 - C29, C44, C48 - C52 | strided constants, `ElementsAttrBuilder` operations | refinement to functions from indices to values |
| C30, C31 | pool state machine, worker interleavings | invariants over histories and schedules |
| C32 - C38, C40 | index expressions and per-op shape computations | case analysis with integer arithmetic; soundness of partial knowledge |
| C39, C47 | interpolation over an ordered field | algebra |
| C41 | C++ offset computation with a 32-bit accumulator | counterexample; correct below 2^31 |
| C53, C54 | loop nests as lists of boxes under block and permute; the krnl.matmul kernel on bounds-checked buffers | permutation of the iteration lists; sums over clipped tiles |
| C55, C56 | MatMul and Gemm lowerings with their tiling and buffers | refinement to the sum over the common dimension |
| C57, C58 | SIMD loops of element-wise operations and reductions | the set of processed elements; commutative monoids for reductions |
| C59, C60 | lowerings of Gather*, Scatter*, OneHot | functional specification of every output element; sequence of stores, last one wins |
| C61–C63 | lowerings of Concat, Split, Slice, Tile, Transpose, ReverseSequence, Pad, DepthToSpace, SpaceToDepth | position of every element; the variants of Transpose proved against one specification |
| C64–C68 | lowerings of ArgMin, ArgMax, Hardmax, CumSum, NonZero, Compress, Trilu, Range, Flatten, Size | loop invariants over the row-major iteration; specification by order, sums or lists |
| C69–C71 | Conv, MaxPool, AveragePool lowerings and the shape inference of their windows | per dimension, the visited positions are the window (increasing lists with equal members); product over dimensions by induction |
| C72–C74 | Loop, Scan and sequence lowerings; the trip count rewrite | induction on the iterations against an inductive ONNX semantics; the buffers are a state copied slot by slot |
| C75 | NonMaxSuppression lowering | loop invariant: marks and counter against the recursive greedy selection; the order comes from C06 |
| C76 | Softmax: the three loops of a group (maximum, exponentials with running sum, division) and the outer loops of both opsets, over real numbers and minus infinity. Proved: the elements of one group are overwritten with exp(x)/sum and all others kept; groups partition the indices |
| C77 | BatchNormalization (inference), InstanceNormalization, LRN, MeanVarianceNormalization and LpNormalization over the reals: the loops and buffers of each lowering. Proved: loop nests against mean and population variance of the group of each element |
| C78 | LayerNormalization, SIMD code: broadcast analysis of scale and bias, blocked rows, vector reductions, normalisation, optional outputs. Proved: the broadcast kinds against ONNX broadcasting; row sums from lane sums; every row processed exactly as specified for every block size |
| C79 | RNN, LSTM, GRU: time loops of both passes, in-place state updates, gate offsets, splitting of weights, biases and peepholes, sequence lengths, copies to the outputs; the layout and sequence_lens rewrites; selection of activation functions. Proved: refinement to the recurrence of the ONNX equations by induction over the time steps |
| C80 | IsTopologicallySorted and SortGraph: maps, degrees, Kahn's algorithm with an ordered multiset, the final swaps. Proved: invariants of the loop; completeness and minimality against all topological orders |
| C81 | the importer: scopes, initializers, nodes, subgraphs, padding of optional inputs and outputs, inlined functions. Proved: simulation between a name-based meaning of graphs and the value-numbered program, by mutual structural induction over nested graphs |
| C82 | GetImportVersionOfNode and the whole generated table of versions. Proved: lemmas on descending lists; the premises checked for the whole table |
| C83 | the parsers of the three options on lists of characters (getline, find, stoi), reshape, the names of dimensions written by the importer and read by the dimension analysis. Proved: round trips from the documented syntax; lookup laws of the maps |
| C84 | the list of checks emitted for a signature and bounds, and their execution with bounds-checked reads. Proved: composition lemmas for checks; the count check protects tensor reads, the rank check protects size reads |
| C85 | the analysis as a function on lists of sets of dimensions and relations, with the order of traversal as a parameter and a bound on steps. Proved: each visit inserts only equal dimensions (per operation, against a relational specification of what operations do to shapes); merging keeps this; offsets likewise |
| C86 | the same model. Proved: a finite universe closed under visits; after a merge the sets are disjoint, so each change puts together a pair that was apart; for offsets also the number of dimensions without relations goes down |
| C87 | graph fragments as terms over ONNX operators with the recorded types; each pattern as a function on terms, against an ONNX semantics on tensors (shape and elements) written separately. Proved: each pattern keeps value, element type and correctness of the recorded types; hence any sequence of rewrites anywhere does |
| C88 | as C87, for the patterns of Identity, Cast, Tile, Split, Concat, Slice, Dim, Shape, Size, Where, Expand. The law of Equal on integers is a hypothesis on the element arithmetic |
| C89 | as C87, for the patterns that use laws of arithmetic. Commutativity, associativity, field, order or power laws are hypotheses on the element arithmetic, stated per pattern; proofs by equality of elements at every index |
| C90 | the Loop operator as a recursion over the trips left; loops with named operands and a body of arguments, constants, Add, Less and arbitrary other operations; the pattern with its index arithmetic (an index out of range is a crash) and the division in rounded arithmetic. Invariant of the iterations: the counter is `lb + i * step`; the rounded quotient has the right ceiling below the precision |
| C91 | the recurrent operators in both layouts over an arbitrary step function; nodes with optional operands and transposes; equality of the states of every sequence by induction over the steps, then of the tensors index by index |
| C92 | ConvTranspose as a sum over the input elements that land on an output element; its replacement by the loop nest of UpsampleAndPad with stores that may fail, Slice with negative steps, Reshape, Transpose and Conv; by reindexing of finite sums over any commutative ring |
| C93 | Conv as a sum over channels and kernel positions; both algorithms for Im2Col as loops of loads and stores that may fail, on a buffer with arbitrary contents; the recorded shapes; sums keep their order, so only commutative products are assumed |
| C94 | Einsum as a sum over all values of the summed subscripts of a product over the operands; the code as an interpreter of the ONNX operators it emits; every step keeps the value as a function of the values of the subscripts that are left; induction over the operands |
| C95 | Equations as lists of letters with an optional ellipsis, and how they are written; the regular expressions as such, with a matcher by derivatives proved right; the string functions on lists of characters; acceptance and signature characterised by an equivalence |
| C96 | Expressions of the operators with their element types and values over the reals; the patterns as functions; a step relation for rewriting anywhere; soundness by induction on steps, a weight for termination, and what a stuck graph can contain |
| C97 | Functions as lists of operations with names; the pattern with its search, use lists in any order, and renaming of uses; runs as assignments that fit all operations, so that the new function's run is the old one extended; an order is built from the operations that depend on a convolution and those that do not |
| C98 | Expressions of elementary operators over the real numbers, with uses and shapes as a parameter; the match with all operand orders; LayerNormalization by the formula of ONNX; Lipschitz bounds of erf and tanh for the rounded constants of Gelu |
| C99 | Expressions with constants; the patterns as partial functions, applied anywhere in any order; associativity of broadcasting; a lexicographic measure of five numbers for termination; normal forms |
| C100 | Typed expressions of integers as bit vectors; the compiler's 64-bit numbers and where they are stored, against operators at the width of the type; induction on expressions |
| C101 | Each quantised operator as arithmetic on one element, 8- and 32-bit integers as bit vectors and floats as an ordered field; rounding characterised by nearest and even |
| C102 | Reference definition of GridSample for any rank against the generated code for two and three axes, with the list of addresses that are loaded |
| C103 | Stickified buffers, split into tiles and merged, against a specification on whole tensors without tiles; the accelerator is a parameter with a contract |
| C104 | Code with loops, operations with declared effects and a semantics as a parameter; the pass; simulation between the runs before and after |
| C105 | IEEE arithmetic over the reals with NaN and infinities and a rounding as a parameter; the emitted formula per operator; integers as bit vectors of any width |
| C106 | Types and values of elements; operations of the dialect arith with their restrictions on types; `MathBuilder::cast`; correctness by congruence modulo powers of two |
| C107 | Blocks as lists of named operations; the choice of what to fuse, the moves of constants and the fused loop nest; by the final values of the block as a fixed point, availability of operands, and induction on the chain |
| C108 | The choice of the buffer and the loop nest on buffers; invariant over the iterations in any order |
| C109 | The session as a state machine over process state (handlers, mask, environment, open libraries), libraries as parameters; refinement to a specification by induction over the history of calls |
| C110 | Text as lists of characters; the replacement loop is shown to quote exactly the words that are types, by induction over words; lookup by strncmp; the result is a text of the JSON grammar |
| C111 | Flags as texts; the driver's functions and the option parser of the compiler are both computed on an arbitrary list of flags (induction) and shown to give the same name, target and tag; composed with the session's default tag (C109) |
| C112 | A heap whose blocks can be freed once; tensors, lists, unique pointers, capsules and arrays on it; the compiler's analysis against where values really are; accounting of all blocks by lists up to permutation, invariant over all orders of dropping |
| C113 | Patterns of SimplifyShapeRelatedOps as rules of the rewriting framework of C87, with Gather and ConstantOfShape added to the operations; soundness of each rule, closed under any rewrites |
| C114 | The walk that collects names, the generation of names with a counter, for any order of the set; invariant of the walk, numbers at the end of names are distinct, pigeonhole for the loop |
| C115 | The pass over code with regions and its runs; the runtime's buffer of records as a state machine; induction over runs, and an invariant of the buffer over lists of executions of any length |
| C116 | The pass on structured loop bodies, threads as small-step machines with private buffers, interleaved by any schedule; simulation of runs after the pass by runs before it |
| C117 | The pass as a sequence of replacements on the graphs of C85, for all orders of its sets; each replacement is a renaming that keeps values and order |
| C118 | The loop and its expressions over the real numbers, compared with the definitions of ONNX; an error bound and a counterexample for Hamming |
| C119 | The substitutions on the string, the words, the cache; the library as a function with a contract on a part of the expressions; equivalence with patterns given as an inductive relation |
| C120 | The loops over any generator of the C library; bounds by induction; the seed and the state as parameters |
| C121 | The fused loop on the memory of C61; it simulates the loop of Concat under permuted indices |
| C122 | The two scans of the command line and the object with its file; induction over items and over histories of loads |
| C123 | Calls and executions against a system that is a parameter; induction over histories, arithmetic of the wait status |
| C124 | The three sources of data with the byte swaps, against the bytes and fields of ONNX; induction over elements, entries and path components |
| C125 | Both copies over memories with sizes, against layouts as injective maps; induction over the iterations in any order |
| C126 | The walk, the map of counts, the sort and the text, against counts of keys and a JSON grammar; induction over operations, keys and text |
| C127 | The three phases with MLIR's elimination in a block, against an evaluation of blocks; invariant of replacements over the operations |
| C128 | The reader of signatures over characters, against the text that C110 shows a model to give; induction over dimensions and inputs |
| C129 | The merge of the option for shapes with the signature; the result is the only list of shapes that fits both, by induction over entries, inputs and dimensions |
| C130 | The loops that write the ones, with a fault for writes outside; induction over elements and rows |
| C131 | The copies of strings into a buffer, with faults for writes outside; induction over strings and characters, reading with a C string semantics |
| C132 | The conversions of bounds and of random numbers, modulo powers of two; by cases over types and arithmetic |
| C133 | The allocations and releases as a list of what is alive, with faults for wrong releases; induction over the inputs |
| C134 | The words and entries of the option for values; the last ones count, by induction over words and entries |
| C45, C46 | broadcast access expressions and flattening of inner dimensions | induction on the rank |

## Areas

Each section says what is modelled, what is simplified, where the code disagrees with
the property (each with a theorem ending in `_false`), and what is left out.

### Runtime tensors (`src/Runtime/OMTensor.inc`, `OMTensorList.inc`, `OMIndexLookup.inc`)

* Modelled: element counts, strides, offsets, index sets, ownership flags of tensors and
  lists, creation, destruction and list operations, `omTensorAreTwoOmtsClose`.
* Simplified: allocation never fails; element types other than their size are left out;
  floating point comparison is over rationals.
* Disagreements: the C++ offset helper keeps a 32-bit accumulator (`C41_false`); the C++
  stride helper fails for scalars (`C01_cpp_strides_scalar_fails`).
* Noted, not proved: the comparison truncates tolerances for integer types and looks at
  the density of its first operand only.
* Left out: printing, string tensors, signature JSON.

### Sorting, TopK, Unique (`src/Runtime/OMSort.inc`, `OMTopK.inc`, `OMUnique.inc`)

* Modelled: the portable quicksort with its explicit stack and any pivot, the per-slice
  drivers, the bounded heap selection, the slice table of Unique.
* Simplified: values come from a linear order (no NaN). `qsort_r` is replaced by its
  contract, and the portable quicksort is shown to meet it.
* Disagreements: TopK evicts the lowest index among equal candidates (`C08_false`). Sorted
  Unique compares slices with the first dimension fastest (`C09_axis_row_major_order_false`).

### Category mapping (`src/Support/SmallFPConversion` aside, `PerfectHash`, `OMIndexLookup`)

* Modelled: FNV-1a on 32 bits, number formatting, bucket construction, run time lookup.
* Disagreements: integers with 19 or more characters are truncated at run time
  (`C10_int_truncation_false`); string keys match by prefix (`C10_string_prefix_false`);
  duplicate keys fail an assertion (`C10_duplicates_false`); construction may never end
  (`C11_diverges`, `C11_false`, `C11_int_false`).

### External constants (`src/Runtime/OMExternalConstant.inc`, constant packing)

* Modelled: the read loop against any schedule of short reads and errors, the mapping
  variant, the load/unload state machine, the packing of constants with alignment.
* Simplified: one caller at a time; the file does not change while it is read.
* Disagreements: mapping does not check the length (`C12_mmap_short_false`); after a read
  error, a second unload or a reload, stale pointers are used (`C13_*_false`).

### Small floats (`src/Support/SmallFPConversion.c`, `SmallFP.hpp`)

* Modelled: the portable C paths for bfloat16, float16 and the NNPA 16-bit format.
* Simplified: hardware paths (AVX, F16C) are left out.
* Disagreements: DLF16 flushes some numbers that round to the smallest one (`C43_dlf16_rounding_false`).

### Constants (`src/Dialect/ONNX/ElementsAttr`)

* Modelled: `DisposableElementsAttr` as buffer, strides and transformer; strided iteration;
  every builder operation on shapes and elements: transform, combine, where, transpose, reshape,
  expand, split, concat, slice, pad, gather, scatterND, reduce, matMul, equal, allEqual, range,
  nonZero and the casts; the parallel loops; the pool and its scrubbing.
* Simplified: the wide number is an arbitrary type and element functions are arbitrary. Element types
  matter only in C51. Buffers are lists of wide numbers. The parallel loops interleave single loads
  and stores.
* Disagreements: reshape of an empty constant with unusual strides (`C21_reshape_empty_false`);
  splitting an empty axis divides by zero (`C24_split_empty_false`); scatterND with negative indices
  (`C28_*_false`); `allEqual` on an expanded empty splat (`C50_allEqual_empty_false`); integer casts
  delay truncation (`C51_int_chain_false`); `nonZero` of a scalar divides by zero (`C52_rank0_false`).
* Left out: attribute uniquing in the MLIR context, printing and parsing, lazily read external data.

### Index expressions (`src/Dialect/Mlir/IndexExpr.cpp`)

* Modelled: literals, symbols, dimensions, affine and non-affine results, predicates, and the
  operations listed in the note of C33. A model of the generated code evaluates each expression.
* Simplified: scopes are left out; float index expressions are left out; affine maps are terms.
* Disagreements: `a - min(x, y)` becomes `min(a - x, a - y)` (`C33_sub_min_false`); literal `mod` of
  negatives (`C33_mod_negative_false`); clamping to an empty range (`C33_clamp_empty_false`); literal
  division through `double` (`C33_large_division_false`).

### Shapes (`src/Dialect/ONNX/ONNXOps/...`)

* Modelled: broadcasting with its run time code, access and flattening; Reshape; Slice with its
  lowering; Split; Concat; Squeeze; Unsqueeze; axis normalisation.
* Disagreements: `C32_empty_dim_false`, `C32_huge_dim_false`, `C34_zero_extent_false`,
  `C35_empty_false`, `C36_uneven_false`, `C36_unknown_false`, `C37_all_empty_false`,
  `C38_squeeze_false`, `C40_release_false`.
* Noted, not proved: Concat's verifier dereferences a null type when no operand is ranked;
  `allowzero` of Reshape is ignored.

### Resize (`src/Runtime/OMResize.inc`, `src/Conversion/ONNXToKrnl/Tensor/Resize.cpp`)

* Modelled: linear and cubic interpolation over an ordered field, and the nearest mode lowering.
* Disagreements: the number of dimensions is fixed to four (`C39_rank3_false`, `C39_rank5_false`);
  `round_prefer_floor` adds 0.499999 (`C47_round_false`).
* Noted, not proved: the run time ignores `nearest_mode`.

### Krnl loops and kernels (`src/Conversion/KrnlToAffine`, `src/Dialect/Krnl`, `src/Dialect/Mlir/DialectBuilder*`)

* Modelled: `krnl.block`, `krnl.permute`, `krnl.iterate`; `krnl.matmul` with full and partial tiles, SIMD
  and unrolling; `krnl.copy_to_tile_buffer` and its inverse; the shuffle reduction; `simdIterateIE`,
  `simdReduceIE` and `simdReduce2DIE`; the explicit parallel loop.
* Simplified: arithmetic is exact (any semiring, or any operations with the stated laws); temporary
  accumulators are private.
* Disagreements: a recreated loop with carried values takes step 1 (`C53_recreated_loop_false`).
* Noted, not proved: padding a tile buffer writes nothing in an outer dimension when the inner padding
  is a literal zero; SIMD loops with an upper bound below the lower bound run a few scalar iterations.

### MatMul, Gemm, element-wise SIMD and reductions (`src/Conversion/ONNXToKrnl/Math`)

* Modelled: the tiled, batched and generic MatMul lowerings with their shape inference; both Gemm
  lowerings with their schedules and shape inference; the choice of the vector length; flat SIMD
  element-wise loops; every path of the reductions and the normalisation of their axes.
* Disagreements:
  * MatMul with a zero dimension and literal sizes has tile size 0 (`C55_matmul_empty_false`);
    broadcasting over an explicit batch dimension 1 reads outside of the operand
    (`C55_generic_broadcast_false`); updating the shape of a rank 1 operand writes at position -1
    (`C55_update_vector_false`).
  * Operands without padding are read past their end when computing past the end is allowed
    (`C57_overcompute_false`).
  * The parallel reduction of a whole tensor of run-time size counts elements twice for some sizes
    (`C58_full_parallel_false`), and takes the absolute value of minus infinity
    (`C58_absmax_parallel_false`). `noop_with_empty_axes` and repeated axes are ignored when reducing to
    a scalar with SIMD (`C58_noop_false`). An axes tensor of size 0 is treated differently by shape
    inference and lowering (`C58_empty_axes_false`). The mean with an empty result divides by zero
    (`C58_mean_empty_false`).
* Noted, not proved: the result buffer of Gemm has the tile type of the left operand, which is larger
  than needed; the test for horizontal minimum and maximum asks for the sum instruction.

### Gather, scatter and one-hot (`src/Conversion/ONNXToKrnl/Tensor`)

- Modelled: the access functions and loops of Gather, GatherElements, GatherND (reshaped buffers and
  append counter included), ScatterElements, ScatterND, OneHot, and their output shapes. Index values
  are unbounded integers. Loops run in row-major order. The printed warnings of safe code are left out.
- Disagreements with ONNX, each with a proved counterexample:
  - GatherND and ScatterND accept negative indices but access out of bounds
    (`C59_gather_nd_negative_false`, `C60_scatter_nd_negative_false`).
  - ScatterND takes the length of an index tuple to be `rank(indices) - 1` instead of
    `indices.shape[-1]`: it writes to a wrong element (`C60_scatter_nd_false`) or reads outside the
    indices (`C60_scatter_nd_bounds_false`).
  - The `reduction` attribute of ScatterElements and ScatterND is ignored (`C60_reduction_false`).
  - Safe code clamps an index of an empty dimension to -1 (`C59_gather_safe_empty_false`).

### Data movement (`src/Conversion/ONNXToKrnl/Tensor`)

- Modelled: the loops and access functions of Concat, Split, Tile, Slice, Pad, ReverseSequence; the
  choice between view, block copy and scalar loop in Transpose and the three versions; the reshape and
  transpose sequence of DepthToSpace and SpaceToDepth. The unrolling of the scalar transpose and the
  parallel annotations are left out. Output dimensions of Slice and Split are inputs (C32, C36).
- Disagreements with ONNX, each with a proved counterexample:
  - SpaceToDepth orders channels as `(c, i, j)` where ONNX has `(i, j, c)` (`C63_space_to_depth_false`).
    The operator's note in `docs/SupportedONNXOps-cpu.md` says "the other is imprecise".
  - Constant Pad with a negative amount stores out of bounds (`C62_negative_false`), reflect Pad by the
    dimension or more reads out of bounds (`C62_reflect_far_false`), and an unsupported mode such as
    `wrap` is accepted (`C62_wrap_false`).
  - Split sizes and sequence lengths are not checked at run time (`C61_split_overflow_false`,
    `C61_reverse_sequence_length_false`).

### Selection, running sums and counting (`src/Conversion/ONNXToKrnl/{Math,Tensor}`)

- Modelled: the loops of ArgMin, ArgMax, Hardmax, CumSum (buffer doubling included), NonZero (counting
  pass and search), Compress (with the emission of the bounds test), Trilu, Range, Flatten, Size.
- Disagreements with ONNX, each with a proved counterexample:
  - ArgMin and ArgMax ignore `select_last_index` (`C64_last_false`) and compare unsigned elements as
    signed (`C64_unsigned_false`).
  - CumSum makes no pass when the dimension is known to be 1, so its output is never written
    (`C65_static_one_false`).
  - NonZero sorts every row independently, so columns are not coordinates of nonzero elements
    (`C66_false`).
  - Range with run-time operands allocates a negative size for an empty range
    (`C68_range_empty_false`).

### Convolution and pooling (`NN/Conv.cpp`, `NN/Pooling.cpp`, `NNHelper.cpp.inc`, `OpHelper.cpp`)

* Modelled: `convUnoptimized` with groups, bias, strides, dilations and paddings; the output
  sizes and paddings of `NNHelper.cpp.inc`; `processConvPadParam`; the pooling window bounds of
  `getIndexExprsForConvWindow`, the loop counts, the access expressions and the denominators.
* Simplified: the three outer loops and the output loops are one nest; arithmetic is exact
  (Conv in a semiring, AveragePool in a field, MaxPool in a linear order without NaN).  The
  division of `processConvPadParam` goes through `double`, exact below 2^53.
* Disagreements: a kernel larger than the padded input gives a negative dimension; pooling with
  dilation 3 in floor mode drops the last kernel element; a dilated window whose start is not
  aligned with the dilation reads the wrong positions; when one dimension is dilated the windows of
  the others get one element too many; in ceil mode a dilated window clipped by the input
  reads one element out of bounds; with `count_include_pad` in ceil mode positions past the padding
  are counted.
* Left out: `im2col` and the other convolution strategies of the compiler, MaxPool's second result.

### Control flow and sequences (`src/Conversion/ONNXToKrnl/ControlFlow`, `.../Sequence`)

* Modelled: the counted and the while form of Loop, Scan, SequenceInsert, SequenceErase, SequenceAt,
  SequenceLength, and the rewrite that replaces a break condition by a trip count.
* Simplified: a tensor is one value, copying it is one step. A body yields one of its arguments or a value computed
  from all of them. A result of the body is a fresh buffer. The while form has no scan outputs.
* Disagreements: results are copied back one after the other, so a body that yields an argument
  of an earlier result gets its new value (`C72_overwrite_false`, `C73_output_false`); a while loop without
  iterations returns buffers never written (`C72_while_zero_false`); scan outputs have a row per
  possible iteration (`C72_rows_false`); the dynamic trip count loses the first iteration of an empty range
  (`C72_trip_dyn_false`) and counts above 2^24 (`C72_trip_f32_false`); inserting into a sequence that is not empty and erasing
  another element than the first leave slots unwritten (`C74_insert_false`, `C74_erase_false`).

### NonMaxSuppression (`src/Conversion/ONNXToKrnl/ObjectDetection`)

* Modelled: counting above the score threshold, the limit, unflipping, the overlap quotient, the marks, the rows of the result.
* Simplified: numbers of an ordered field; the order of the boxes is any stable order, which is what C06 proves of `omTensorSort`.
* Disagreements: boxes are dropped when the overlap is equal to the threshold too; with the default threshold 0 at most one box per class
  is kept (`C75_default_threshold_false`).

### Softmax (C76)

`Verif/Lower/SoftmaxModel.lean` models Softmax.cpp. Inputs are real numbers or minus infinity
(attention masks contain it), and operations whose floating-point result would be NaN or a
division by zero fail, so "the result exists" carries meaning: `C76_softmax` shows that it does
whenever each line contains a real number, and `C76_masked_line_undefined` that this is needed.
The exponential is a parameter known to be right for non-positive arguments only, so the same
theorem shows that the maximum is subtracted properly: no exponential of a positive number is
ever taken. Rounding and the parallel execution of the outer loops are not modelled.

### Normalization (C77)

`Verif/Lower/NormModel.lean` models the BatchNormalization, InstanceNormalization, LRN,
MeanVarianceNormalization and LpNormalization code over the reals; division by zero and roots of
negative numbers fail. Simplified: rounding, the element type (LRN builds 32-bit constants whatever
the type is), parallel loops. Disagreements:

* `C77_mvn_constant_false`: a slice whose elements are all equal gives 0/0 (a NaN). ONNX defines
  MeanVarianceNormalization with 1e-9 added to the deviation and the result 0.
* `C77_mvn_negative_axis_false`: negative axes, which ONNX allows, index the list of dimensions
  out of bounds.

Left out: InstanceNormalization with spatial dimensions of size zero (hence `_partial`).

### LayerNormalization (C78)

`Verif/Lower/LayerNormModel.lean` models the SIMD lowering of LayerNormalization and
RMSLayerNormalization: `isBroadcastCompatible` with what the dimension analysis knows about scale
and bias (assumed right), flattening, `generateIterWithSIMD` on blocks of rows and the loop over
blocks with its remainder. Numbers are real; E[x^2] - E[x]^2 is shown to be the variance, so the root is
never taken of a negative number (with rounding it can be, which is not modelled).
Disagreement: `C78_rms_invstddev_false`: with the optional output InvStdDev, RMSLayerNormalization asks for
the dimensions of output 2 of two.
Left out: the generic code made of ONNX operations, rows of length zero, and element types that are
converted.

### RNN, LSTM, GRU (C79)

`Verif/Lower/RnnModel.lean` models the lowerings on memories with bounds-checked accesses; the operations MatMul,
Transpose, Squeeze and Split they emit have their ONNX semantics. `RnnSpec.lean` has the equations for one
sequence of the batch (`rnnCell`, `lstmCell`, `gruCell`) and the recurrence `stateAfter`. Proof: a step's loop over
the points changes each point once (`pointLoop`), so products of the old state are not disturbed; a loop over the time steps
keeps the invariant that the state is that of the recurrence (`timeLoop_ok`), also for a sequence that is shorter than the input.

Disagreements: `C79_lstm_seqlens_false` (LSTM ignores `sequence_lens`; the code has a comment on that),
`C79_drop_seqlens_false` (for a batch of one sequence the canonicalizer drops `sequence_lens`, "because by definition all
batches have the same sequence length", but that length may be smaller than the time dimension). GRU pads Y with
`initial_h`; the ONNX reference and ONNX Runtime pad with zeros. `clip` and `input_forget` are ignored.

### The importer (C80, C81, C82)

`Verif/Builder/SortModel.lean` models `IsTopologicallySorted` and `SortGraph` with their maps, degrees, multiset and swaps;
`SortSpec.lean` says what a topological order is. The proof keeps Kahn's invariant (degree = inputs whose producers are
not yet taken; available = degree zero and not taken), which gives soundness, completeness and minimality of the
order. Disagreements: `C80_captures_false`: values used inside subgraphs do not count as inputs, so the sort may put `If` or
`Loop` before the producer of such a value, and import then drops the operand (`C81_undefined_false`); subgraphs are not
sorted. `C80_check_false`: the check refuses sorted graphs with an omitted input; harmless by
`C80_identity`. `ImportFrontendModelArray` does not look at the result of `ImportFrontendModelInternal`, so a graph that cannot be
sorted is reported as success with an empty module (read in the code, not modelled).

`ImportModel.lean` models the importer as a function from nested graphs with names to regions with numbered values: scopes searched
from the outermost, bindings in the innermost, none values for omitted inputs, padding of trailing inputs and results, constants for
initializers, arguments for the other inputs, inlined functions. `ImportSpec.lean` gives the meaning of graphs by environments of
names, of regions by environments of numbers, and what a valid graph is (names defined before use, single assignment, no shadowing).
The meaning of operations is a parameter. Proof: both agree by mutual induction over nodes and graphs (`ImportTop.lean`), and
valid graphs are imported (`ImportOk.lean`). Disagreements: `C81_undefined_false` (an undefined input is dropped and the
following ones move up), `C81_shadow_false` (forbidden by ONNX), `C81_call_outputs_false`, `C81_call_shift_false`,
`C81_call_fewer_false` (outputs of functions are matched by position after those without a value have been removed).

`VersionModel.lean` models `GetImportVersionOfNode`; `VersionTable.lean` is generated from `OpBuildTable.inc` and holds all 223 rows.
Disagreements: `C82_domain_false` (a model importing `ai.onnx` instead of the empty domain is imported with the newest
versions), `C82_logsoftmax_false` (LogSoftmax of opset 11 gets the version of opset 13 although axis default and meaning differ; the
table shows the same for Hardmax and for TopK of opsets 1 and 10).

### Options for inputs, and their verification (C83, C84)

`Verif/Builder/ShapeOptModel.lean` has the parsers on lists of characters, with `std::getline`, `find`/`substr` (where `npos + 1` is 0) and
`std::stoi` (ignores what follows a number; exceptions are `none`). `ShapeOptSpec.lean` has the documented syntax as a printer and the meaning of
entries. Disagreements: `C83_output_names_false` (only outputs with names are collected, then attached by position: names move to
earlier outputs, and the dimension analysis equates the wrong dimensions), `C83_wide_false` (a dimension is cut to `int`: 2^32 + 5 becomes 5),
`C83_no_colon_false`, `C83_garbage_false` (malformed options are accepted), `C83_comma_false` (a dim_param with a comma ends the compiler). For
`--shapeInformation` the first entry for an input counts, for `--dimParams` the last. The options also apply to the inputs of subgraphs with the
same index (read in the code; the model has one list of inputs).

`EntryModel.lean` models what the entry point checks, as a list of comparisons run in order, with reads that fail out of bounds.
Disagreements: `C84_string_false`, `C84_bound_input_false`. Upper and lower bounds for all inputs also hold for inputs with their own bounds, unlike
`--shapeInformation`.

### Analysis of dynamic dimensions (C85, C86)

`Verif/Dims/Model.lean` models `ONNXDimAnalysis.cpp`: initial sets (results of target operations, arguments and results of the function with
their names), `visitDim` (consuming operations, shape helpers, shape inputs, broadcasting, Reshape), merging, `visitDimForOffsets`,
`propagateOffsetRelations`, and the questions `sameDim`, `sameDynDim`, `sameShape`, `sameDynShape`, `broadcastLastDim`, `getDimOffset`,
`sameDimWithOffset`. The hash maps are lists with an arbitrary order of traversal. What the shape helpers find is an input of the model (`sameQ`); its
correctness is a hypothesis. `Spec.lean` says what an execution is, without the analysis: sizes and integer elements per value, related by
each operation as in ONNX.

Disagreements (each is a theorem): with three operands (Where, Sum, Min, Mean) two operands of size 1 decide the result
(`C85_three_operands_false`), and with a pair of smaller rank the axes are off (`C85_rank_false`); Expand to a shape entry 1 or with a
shape shorter than the input (`C85_expand_false`, `C85_index_false`: a read past the end of a list); first element of a vector constant
(`C85_expand_offset_false`); entries -1 of a Reshape shape that come from an input (`C85_reshape_false`), empty tensors (`C85_empty_false`);
`sequence_lens` of size 1 is taken for its value (`C85_sequence_lens_false`); adding the constant 3 to the elements of a tensor is taken for adding 3 to
its size (`C85_add_constant_false`); narrowing Casts (`C85_cast_false`). Two functions for which `propagateOffsetRelations` loops forever:
`C86_dim_false`, `C86_cast_false`. Read in the code but without a theorem: Max is not in the list of broadcasting operations and a
user that is not a target ends the search (both only lose precision).

### Graph rewrites (C87)

`Verif/Rewrite/Onnx.lean` and `Term.lean` are the specification: tensors, what the ONNX operators do to them, graph fragments with recorded
static types, what a sound rewrite is. `TransposeRules.lean`, `SqueezeRules.lean`, `ReshapeRules.lean` model the patterns of
`Canonicalize.td` and `Canonicalize.cpp` one by one (pattern, constraints, what is built; a failed assertion or a null attribute is
`crash`). A fragment is a tree: a value used twice appears twice, which is harmless because patterns replace values by equal values; the
number of uses of a value, where a pattern looks at it, is not modelled. Shape inference on newly built operations is not modelled: where a
pattern calls it, the type recorded in the model has no shape.

Disagreements (each is a theorem): transposes around IsNaN or a Cast that changes the type are fused into an operation with a wrong result
type (`C87_fuse_transpose_isnan_false`, `C87_fuse_transpose_cast_false`); a Transpose without `perm` below another one dereferences a
null attribute (`C87_fuse_transpose_null_false`); the axes of Squeeze and Unsqueeze are compared with one rank though they refer to
tensors of different ranks (`C87_squeeze_unsqueeze_false`, `C87_unsqueeze_squeeze_false`); two Reshapes whose extents are computed at run
time (`C87_fuse_reshape_false`); Reshape of empty tensors (`C87_identity_reshape_false`, `C87_reshape_allowzero_false`).

### Graph rewrites of Concat, Dim, Where and Expand (C88)

`ConcatRules.lean` and `DimRules.lean` model the patterns, `ConcatLemmas.lean`, `DimLemmas.lean`, `WhereLemmas.lean`, `ExpandLemmas.lean` the
proofs. Whether a Concat has one use is an arbitrary input of the model. Disagreements (each is a theorem): the positions of the empty
operands of a Concat are not adjusted while they are erased, so a good operand is dropped or the compiler crashes, and a negative axis is
used as an index (`C88_concat_zero_false`, `C88_concat_zero_crash_false`, `C88_concat_zero_axis_false`, `C88_concat_empty_false`); a Cast moved
into a Concat of unranked values has a wrong type (`C88_cast_concat_false`); Dim of a Reshape to a run-time 0 or -1
(`C88_dim_reshape_false`); Dim of a Transpose without `perm` (`C88_dim_transpose_null_false`); Where replaced by an operand of another shape
(`C88_where_false_false`), by looking at the wrong Concat (`C88_where_equal_false`), by letting 0 pass as negative
(`C88_where_equal_zero_false`), by indexing a short constant (`C88_where_equal_short_false`); a scalar Reshape result that loses
broadcasting (`C88_reshape_binary_false`); Unsqueeze at negative axes of an Expand (`C88_unsqueeze_expand_false`); a slice with dynamic
extents of an Expand (`C88_slice_expand_false`).

### Graph rewrites that recombine arithmetic (C89)

`OnnxArith.lean` is the specification of MatMul, Gemm, Conv, MaxPool, Clip and the normalizations; `ArithRules.lean` models the patterns;
`ArithSem.lean`, `GemmLemmas.lean`, `ConvLemmas.lean`, `BatchNormLemmas.lean`, `ElementLemmas.lean`, `NormLemmas.lean` hold the proofs. The
theorems assume of the element arithmetic only the laws they name, which exact numbers satisfy; rounding is outside the model.
Disagreements (each is a theorem): Gemm and LayerNormalization cannot stretch the product as Add does (`C89_gemm_false`,
`C89_gemm_add_false`, `C89_layernorm_bias_false`); the bias of a Conv gets a wrong number of elements (`C89_conv_add_false`,
`C89_conv_add_bias_false`); a vector of one element scaling a product of vectors (`C89_matmul_scale_false`); integer division moved into a
product (`C89_matmul_div_false`); parameters of another type than the data (`C89_batchnorm_types_false`); weights of unknown rank
(`C89_conv_batchnorm_false`); Clips with disjoint ranges (`C89_clips_false`); a comparison of floating-point values converted to integers
(`C89_less_cast_false`); an exponent with more axes (`C89_pow_false`) or 0 with an unknown shape (`C89_pow_zero_false`); MatMul of a Reshape
with unknown or empty extents (`C89_reshape_matmul_false`, `C89_reshape_matmul_empty_false`); GroupNormalization of version 21, whose
parameters are reshaped to groups by groups (`C89_groupnorm_false`).

### Trip count of a Loop (C90)

`Verif/LoopTrip/Spec.lean` specifies Loop and rounding, `Claim.lean` loops that count, `Model.lean` the pattern. Rounding is a function with
two laws (exact on integers of at most `p` bits, relative error at most `2 ^ -p`), met by round-to-nearest-even (`roundTo_rounds`).
Scalars of signed types only. Two Add operations on the same operands count as one value, so the model matches slightly more loops.
Disagreements (each is a theorem): a start at or above the bound known only at run time (the body must run once,
`C90_start_at_bound_false`); a negative step known only at run time (`C90_falling_counter_false`); ranges of more than 24 bits
(`C90_large_range_false`); overflow of the counter (`C90_overflow_false`); a constant used both as trip count and as an initial value
(`C90_shared_trip_count_false`); arguments of enclosing blocks taken for arguments of the body (`C90_outer_argument_false`); an index of -1
for the iteration number or the first input of the model (`C90_crash_false`).

### Rewrites of recurrent operators (C91)

`Verif/RnnRewrite/Spec.lean` specifies layouts, directions and sequence lengths over any step function; `Model.lean` the two patterns.
Disagreements (each is a theorem): a batch of one sequence shorter than the padded input loses its length (`C91_seqlens_false`); in layout 1
the second extent of initial_h, the number of directions, is taken for the size of the batch (`C91_seqlens_layout_false`).

### ConvTranspose (C92)

`Verif/ConvTranspose/Spec.lean` defines the operator; `Model.lean` the paddings, weights and Conv of its decomposition and the lowering of UpsampleAndPad.
Disagreements (each is a theorem): paddings larger than the kernel make the lowering store outside of the buffer (`C92_store_outside`, `C92_store_outside_false`);
output_shape with auto_pad = NOTSET divides an odd padding the wrong way round (`C92_output_shape_false`); SAME with a kernel shorter than the
stride gives a result shorter than announced (`C92_same_extent_false`); a negative total is divided inconsistently (`C92_negative_total_false`).

### Conv as a matrix product (C93)

`Verif/ConvMatMul/Spec.lean` defines the matrix of the windows; `Model.lean` the two patterns, `reshapeToNDim`, and the shape helper and the two
lowerings of Im2Col. Disagreement: an empty image (`C93_empty_false`).

### Einsum (C94)

`Verif/Einsum/Spec.lean` defines Einsum on subscripts; `Model.lean` evaluates what the code emits, and fails if an operator is not
defined, an assertion fails or a recorded shape is wrong. `Product.lean`, `Contract.lean`, `Diagonal.lean` prove one step each,
`Main.lean` puts them together. The order of the hash tables of the code is a parameter.

### The equations of Einsum (C95)

`Verif/Einsum/Equation.lean` has the specification first (what an equation is, how it is written, which subscripts the axes get, which types are
accepted) and then the model of `EinsumHelper.cpp`. `Regex.lean` defines regular expressions and proves a matcher; `Syntax.lean`,
`Signature.lean` and `Types.lean` contain the proofs. `C95_einsum` joins them with C94.

### Composite operators (C96)

`Verif/Decompose/Spec.lean` defines the operators over the reals, `Model.lean` the expressions, their types and values, and the patterns of
`Decompose.td` for these operators, HardSwish and CastLike of `Decompose.cpp`. `ReduceLemmas.lean`, `RuleLemmas.lean` and `Steps.lean` contain the
proof that a step keeps type and value, `Done.lean` that the rewriting ends and what is left, `Sum.lean` the additions that replace Sum.

Disagreements with the full property:
- ReduceLogSumExp with `keepdims = 0` squeezes the maximum along the given axes. An empty list of axes means all axes for ReduceMax, but none for
  Squeeze (`C96_squeeze_false`: the result has shape [1, 1] instead of []). The same with `noop_with_empty_axes = 1` and no axes operand.
- ReduceL2, ReduceLogSum and ReduceLogSumExp accept integers; what they are replaced by does not (`C96_integers_false`).
- The constants for HardSwish are f32 and have one axis, those for Clip version 6 are f32, whatever the operand is (`C96_hardswish_type_false`,
  `C96_hardswish_rank_false`, `C96_clip_false`).
- `createDenseArrayAttr` reads the first entry of a list that may be empty (`C96_empty_false`).
- ReduceLogSumV13, ReduceLogSumExpV13 and ReduceSumSquareV13 have patterns but are not marked illegal in the Decompose pass, so that it leaves
  them to the hybrid pass; CastLike has no pattern in the hybrid pass. With the option `--onnx-hybrid-pass=false` the former are left (`C96_left`).

Not modelled: rounding, infinities and NaN (the maximum subtracted in ReduceLogSumExp changes no real number), saturation of Cast.

### Convolutions of the same input (C97)

`Verif/Recompose/GraphSpec.lean` defines functions, what they return, and dependence. `ParallelConv.lean` models `CombineParallelConv2DPattern`:
compatibility, candidates, the search, the common Concat, the new operations and the renaming of uses. `ConvConcat.lean` proves that Conv with
concatenated weights is the Concat of Convs and that Split undoes Concat; `GraphLemmas.lean` that what a function returns is determined by any
assignment that fits its operations; `Search.lean` that the search is exact; `Combine.lean`, `CombineOrder.lean` and `CombineSound.lean` the rest.

Disagreements with the full property:
- The Concat of the results is replaced by the new Conv without a look at the order of its operands. MLIR's list of users begins with the last
  use, so the usual program gets its channels in the wrong order (`C97_order_false`). That the list begins with the last use can be
  seen in the project's test `onnx_recompose_combine_parallel_conv.mlir`, where the weights are concatenated in reverse. Further operands of the Concat are lost (`C97_operands_false`).
- With more than one group, concatenated weights do not give the concatenated results (`C97_group_false`).
- A Conv that uses the value as its weights or bias counts as a user of the input (`C97_role_false`); a Conv that uses the value twice is erased
  twice (`C97_twice_false`).

Not modelled: unranked weights (`getShape` aborts), operations in other blocks that use the values (`isBeforeInBlock` aborts), locations.

### Normalisations and Gelu (C98)

`Verif/Recompose/NormSpec.lean` gives the definitions of ONNX over the real numbers (a mean of nothing or a quotient by 0 has no value), with erf
as an integral. `NormModel.lean` models the two patterns; what the compiler knows of the graph (`Info`) is a parameter that must be true.
`NormSound.lean` and `GeluSound.lean` prove the replacements, `GeluError.lean` bounds the effect of the constants that were rounded to single
precision, `NormFound.lean` what is recognised, `NormCrash.lean` when nothing aborts.

Disagreements with the full property:
- epsilon is taken from the attribute `value_float` of the constant, which ordinary constants do not have: the replacement then uses the default
  1e-5 whatever the constant is (`C98_epsilon_false`).
- A scale, or constants of Gelu, that enlarge the result (`C98_scale_false`, `C98_gelu_shape_false`).
- The match aborts on a ReduceMean without axes, on an epsilon that is an argument of the function, and on a product with `p / Sqrt(q)` where `p`
  is a matrix or has an unknown length (`C98_crash_false`).

Not modelled: floating-point rounding (except the constants of Gelu), the element type of the stash, RecomposeQLinearMatMul.

### Arithmetic with constants (C99)

`Verif/ConstProp/ArithSpec.lean` defines expressions and their values, `ArithModel.lean` the patterns, with what the compiler knows (types, use
counts, the expansion bound) as a parameter that can differ at each step. `Verif/Rewrite/BroadcastAssoc.lean` proves that broadcasting is
associative, failure included; with it `ArithSound.lean` proves each pattern. `ArithTerm.lean` has the measure: nodes, subtractions, constants not
yet paired, pairs of a constant left of another operand, and nodes in right operands. `ArithNormal.lean` says what is left at the end.

Disagreements with the full property:
- Floating-point sums are reassociated without regard to rounding (`C99_rounding_false`).
- `ValuesHaveSameType` is true of two values of unknown rank, so that zeros that enlarge a value are dropped (`C99_unranked_false`).

Not modelled: sharing (a value with several uses appears once per use), the arithmetic of numbers of each element type (a parameter).

### Folding of integer constants (C100)

`Verif/ConstProp/FoldSpec.lean` defines expressions and what each operator of ONNX computes at the width of its type, `FoldModel.lean` the 64-bit
numbers of the compiler, `none` being undefined behaviour, `llvm_unreachable` or a failed assertion. `FoldSound.lean` proves that both come from the
same integer; `FoldSingle.lean` that single operators of up to 32 bits always fold.

Disagreements with the full property:
- Numbers are cut to their type only when the final constant is read: `Less(Add(100, 100), 0)` on `int8` (`C100_chain_false`), and
  `Cast<int32>(Cast<int8>(300))` (`C100_cast_false`) fold to wrong values.
- `Clip` on signed integers without a bound uses `APInt::getMaxValue` / `getMinValue`, which are the bounds of unsigned numbers: `Clip(5)` folds to
  -1 (`C100_clip_false`).
- `Mod` does not look at `fmod` (`C100_fmod_false`); `Abs` on 64 bits goes through `double` (`C100_abs_false`).
- `Mod` of unsigned constants reaches `llvm_unreachable`, a remainder by zero traps, and a cast of a boolean constant to a signed type fails an
  assertion (`C100_crash_false`).

Not modelled: floating-point elements, Pow, reductions, and the operators that move elements around.

### Quantised operators (C101)

`Verif/Quant/Spec.lean` defines the operators of ONNX, rounding being the relation "nearest, and even if there are two". `Model.lean` is the code that is
generated for one element. `Lemmas.lean` and `Products.lean` prove them equal. The ordered field stands for floats, whose rounding is not modelled.

Disagreements with the full property:
- `QLinearMatMul` adds the zero point in 32 bits and cuts the sum to 8 bits, although the comment says "saturate": 100 * 100 comes out as 16 instead
  of 127 (`C101_saturate_false`).
- The zero point of the left operand is unsqueezed to a column, its scale is not: scales for rows are applied to columns (`C101_row_scale_false`).
- The recomposition of `QLinearMatMul` looks neither at the axis of DequantizeLinear (`C101_recompose_axis_false`) nor at missing zero points, for
  which there is no lowering (`C101_missing_zero_false`).
- `QuantizeLinear` asserts that the scale has rank 0, so one-element vectors stop the compiler (`C101_scale_rank_false`); `DequantizeLinear`
  asserts scalar parameters (`C101_dequantize_axis_false`).
- With `--disable-quant-zero-point` zero points that are there are dropped (`C101_no_zero_false`).

Not modelled: floats with their infinities (a tensor of zeros gives the scale 0 and then 0 / 0), types other than 8 bits, and loops.

### GridSample (C102)

`Verif/GridSample/Spec.lean` is the reference definition, one axis at a time; `Model.lean` is the generated code, a load giving its value and its address,
with memory holding something at every address. The values do not depend on what lies outside of the image.

Disagreements with the full property:
- With zeros padding the element is loaded first and the bounds are looked at afterwards, so addresses outside of the image are read. A grid within
  [-1, 1] is enough: its corner (1, 1) reads beyond the last row (`C102_zeros_safe_false`).
- Cubic interpolation with border padding: ONNX moves a place beyond the border to the border; the code clamps each of the 16 neighbours instead
  (`C102_cubic_border_false`).
- Mode `bilinear` on 5-D inputs passes the verifier and gives zeros (`C102_bilinear_three_false`).

Not modelled: floats, NaN in the grid, and the reuse of one buffer for the plans of all batches (each plan is filled before it is used).

### Tiles in the NNPA runtime (C103)

`Verif/Zdnnx/Spec.lean` has the layout of stickified tensors (address of an element) and what an operation has to compute; `Model.lean` is the C code:
the choice of tile sizes, the split, views, copies of sticks between tiles and tensors, and the sequential and parallel drivers. The operation of the
accelerator is a parameter with a contract about whole tensors. A buffer maps addresses to cells of two bytes. The order of the tiles stands for the
schedule of the threads: tiles write disjoint parts of the result, and every step of a tile is taken at once. Tiles of the wrong shape are modelled as
they are; elementwise results are right nevertheless because the cells in between are padding.

Disagreements with the full property:
- `C103_tile_shape_false`: the last tile along a dimension gets the full shape and vice versa when both tests meet; wasteful, not wrong.
- `C103_matmul_bcast_false`: with a left matrix for all stacks (bcast1) the loop over stacks is bounded by the left matrix, so that one stack is computed.
- `C103_omp_transpose_false`: the parallel product cuts the right matrix along `e1` without looking at the transposition.
- `C103_omp_status_false`: parallel elementwise operations drop the status of the tiles.
- `C103_zero_limit_false`, `C103_zero_threads_false`: `ZDNNX_MAX_TILE_SIZE_IN_MB=0` and `OM_NUM_ZAIU_THREADS=0` divide by zero.
- `C103_size_false`: sizes are rounded up to sticks after the limit has been applied, so the limit on the number of elements can be exceeded.

Not modelled: cells of one byte, quantised products, overflow of 32-bit sizes, allocation failures, and that a view shares its descriptors with the tensor.

### Buffers that are only written (C104)

`Verif/WriteOnly/Spec.lean` has functions, runs and what declared memory effects mean (`Honest`); `Model.lean` is the pass, where erasing an operation
that is already gone, or that still has uses, is `none`; `Sim.lean` and `Pass.lean` prove that dropping operations that only change removed buffers or
define variables nobody uses keeps the results. `C104_complete` says that the set chosen is the largest set of allocations every user of which only
writes, and writes only to the set.

Disagreements with the full property:
- `C104_world_false`: `isWriteOnlyAlloc` ignores effects that are on no value, so an operation that writes to the buffer and, say, prints, is erased.
  `krnl.random_normal` declares only the write to its output although its runtime function `get_random_normal_value_f64` uses `rand()`, and functions
  called by `krnl.call` may do anything; erasing those may change later random numbers. The hypothesis `Tame` excludes declared effects of this kind, and
  `Honest` the undeclared ones.
- `C104_same_value_false`: `storedValues` is filled per user, and `defOp->erase()` runs once per entry without looking whether the operation is gone.
- `C104_nested_false`: `parentLoops` may have both an outer and an inner loop; when the outer one comes first, the inner one is dangling.

Simplified: a buffer is named by the variable it is allocated for, so that a buffer allocated in a loop is the same one in every iteration; loops have one
variable and no values carried around.

### Scalar code of element-wise operators (C105)

`Verif/Scalar/Spec.lean` has the functions of ONNX on the reals, limits (`LimitOf`, with `Tendsto` of Mathlib), Mod and Clip on integers, and strings.
`Model.lean` has the operations of `MathBuilder` on NaN, infinities and reals, each rounded by a parameter `rnd`, and the formulas of `emitScalarOpFor`.

Disagreements with the full property:
- `C105_infinity_false`: Mish, HardSwish and Gelu multiply `-inf` by 0 and give NaN where the function tends to 0; Softsign is `inf / inf`.
- `C105_nan_false`: `arith.maxnumf` and `arith.minnumf` return the other operand, and comparisons with NaN are false.
- `C105_overflow_false`: Softplus computes `exp` first: for x ≥ log B, with B the end of the format, it is infinite although the value is about x.
- `C105_isinf_false`: both attributes 0 reach `llvm_unreachable`; ONNX allows them.
- `C105_fmod_false`: the attribute `fmod` is never read; integers always follow the divisor.
- `C105_mod_min_false`: `arith.remsi` of the smallest number by -1 is undefined.
- `C105_shift_false`: `arith.shli` and `arith.shrui` by the width or more are poison.
- `C105_binarizer_false`: `MathBuilder::constant` asserts that the value is an integer.
- `C105_string_false`: `strncmp(lhs, rhs, strlen(lhs))` is zero when `lhs` is a prefix of `rhs`.

Not modelled: errors of rounding (the theorems on finite numbers take `rnd` as the identity), the sign of zero, Pow, Cast, Mod on floats, and unsigned
integers except for shifts. `MathBuilder::constant` has no case for bf16.

### Cast (C106)

`Verif/Casts/Spec.lean` has the types, the number a value stands for, and what a conversion must give. `Model.lean` has the operations of the dialect
`arith` (integers must have no sign in their type; out-of-range floats give poison) and `MathBuilder::cast`. `invalid` is an assertion or the verifier.

Disagreements with the full property:
- `C106_types_false`: `arith.extsi`, `arith.trunci` and `arith.extui` are built with an unsigned result type when the source is signed or boolean and the
  width differs, which the verifier rejects; the branch for unsigned sources forgets `destIsIndex`; two floats of the same width trip an assertion;
  `constant` has no case for bf16.
- `C106_nan_false`: `neq` uses the ordered predicate `ONE`, which is false for NaN.

Not modelled: vectors (converted element by element), strings, types of 8 bits for floats and of 4 bits.

### Fusion and reuse of buffers (C107, C108)

`Verif/Fusion/Spec.lean` has what element-wise operations compute, with broadcasting. `Model.lean` has `emitScalarOpFor` by kind of operation, `getAccessExprs`,
`OpFusionHelper` and the running of blocks, in which an operation reads only values computed before. `Verif/Reuse/Model.lean` has `allocOrReuse` and the loop
nest on buffers. The analysis of dimensions is a parameter, assumed right (C85).

Disagreements with the full properties:
- `C107_mean_false`, `C107_max_false`, `C107_sum_false`: `emitFuseOps` calls `emitScalarOpFor` once with all operands and no `emitPostProcessingFor`, while the
  code of variadic operations is meant to be folded over pairs of operands.
- `C107_bounds_false`: `emitFuseOps` sets `flattenedInnerDims`, for which `getAccessExprs` takes the last index as it is, although nothing is flattened and the
  broadcast has not been checked.
- `C107_constant_false`: constants are moved in front of the previous operation of the chain, not of the first one. `C107_outer_constant_false`: `isBeforeInBlock`
  asserts that both operations are in one block (builds with assertions).
- `C107_dequantize_false`: the scale of a DequantizeLinear with an axis is broadcast along the last dimension.
- `C108_*_false`: `isBufferReusable` looks at uses and shapes only. The option is off by default.

Not modelled: the code with vectors (it does not fuse), types of elements in fused chains, parallel loops.

### Sessions (C109)

`Verif/Session/Spec.lean` has calls, answers, libraries and what a program may expect; `Model.lean` has `ExecutionSession.cpp` with the parts of the process it
changes. `dlopen` and the entry points are parameters.

Disagreements with the full property:
- `C109_ill_false`: `runWithSignalHandler` writes the old handlers of SIGILL and SIGABRT to one variable. `C109_abort_false`: it does not restore SIGABRT after a
  signal. `C109_second_false`: it leaves the handler with `longjmp`, which does not unblock the signal on Linux.
- `C109_environment_false`: `loadModel` removes `OM_CONSTANT_PATH` only when it succeeds.
- `C109_entry_false`: `setEntryPoint` overwrites the pointer before it is tested.
- `C109_destroy_false`, `C109_leak_false`: the handle has no initialiser, and a constructor that throws does not close it.

Not modelled: Windows, threads, printing of instrumentation, texts of messages, `queryEntryPoints`.

### Signatures (C110)

`Verif/Signature/Spec.lean` has the text of the description and the grammar of JSON; `Model.lean` has the generation of the text, the replacement of types,
the split at the at sign, the global constants and the generated functions with `strncmp`.

Disagreements with the full property: `C110_at_false`, `C110_name_false`, `C110_type_false`, `C110_escape_false`: the text is built by concatenation, and
element types are quoted afterwards by search and replace, so that names can take part in it.

Not modelled: z/OS, the printing of types by MLIR (the name of the type is given), unranked tensors (printed like scalars).

### The driver (C111)

`Verif/Driver/Spec.lean` has the option parser of LLVM (its contract), the forms of flags, and the shell; `Model.lean` has `CommandUtils.cpp`, what
`OMCompile::compile` runs and reports, and what the compiler makes of its options (name of the output, target, tag).

Disagreements with the full property: the theorems `C111_..._false`.

Not modelled: environment variables with options (`ONNX_MLIR_FLAGS`), the search for the compiler, running the process and its log, container engines beyond
the command text; options given more than once (an error of the compiler, except for `-Emit...`).

### Memory of inputs and outputs (C112)

`Verif/Ownership/Spec.lean` has the heap and the values a compiled function returns; `Model.lean` has `shouldOwn`, the tensors made by the entry point,
`ExecutionSession::run` on vectors, the Python run, and dropping results.

Assumed: a compiled function frees the buffers it does not return (MLIR's buffer deallocation); Python calls the destructor of a capsule when the last array
that uses it is dropped; C++ destroys arguments passed by value and unique pointers.

Disagreements with the full property: the theorems `C112_..._false`.

Not modelled: allocations that fail, unsupported types of outputs, `fillInputDebug`.

### Operations on shapes (C113)

`Verif/Rewrite/ShapeOpsRules.lean` has the seven patterns, with the reading of Slice's bounds; `ShapeOpsLemmas.lean` the proofs. The meaning of the operations
is in `Verif/Rewrite/Onnx.lean` and `Term.lean`.

Disagreements with the full property: the theorems `C113_..._false`.

Not modelled: the loop of the pass that alternates these patterns with shape inference and constant propagation; the `saturate` attribute, which the Casts
of single dimensions lose; element types of fewer than 64 bits for indices.

### Names of operations (C114)

`Verif/Names/Model.lean` has the two passes that set and keep names.

Assumed: MLIR's CSE keeps address, kind and attributes of the operations it leaves; llvm's small sets of pointers iterate in order of insertion up to their
inline size, in any order above.

Disagreement with the full property: `C114_same_names_false`.

Not modelled: the counter wrapping at 2^64; names from file locations, which this pass does not use.

### Instrumentation (C115)

`Verif/Instrument/Model.lean` has the pass, the packing of tags and the runtime's buffer; `Spec.lean` the runs of code, with any choice of regions any number
of times, and the report that is expected.

Assumed: strings for equal names are the same object, as the compiler makes them; writing to the file succeeds.

Disagreements with the full property, all in the code as it is: `flushRecordBuffer` tests the bit for calls before an operation twice, so that reports with
calls after only are empty (`C115_report_after_false`) and reports with calls before only have lines with times never set
(`C115_report_before_false`); an operation around others loses its end (`C115_report_nested_false`); an operation that runs twice in a row is reported once
(`C115_report_repeated_false`); names are cut to their length modulo 64 or 512 (`C115_report_long_name_false`); the call that initialises is put before the
first selected operation of the text, wherever that is (`C115_after_false`, `C115_branch_false`, `C115_loop_false`).

Not modelled: memory reports, signatures, environment variables, the clock, several threads.

### Buffers in parallel loops (C116)

`Verif/Hoist/Model.lean` has the pass and a machine that runs a parallel region: threads with shares of the iterations, a shared state, buffers with bounds and
cells that may not have been written. The theorem is a refinement: what can happen after the pass could happen before it.

Assumed: a buffer is reached only by the name of its allocation (no pointer to it is stored), and by the thread that allocated it; nested parallel regions are
single steps.

Not modelled: use of memory by allocations that become unconditional; block arguments of the worksharing loop itself, which `areOperandsDefinedOutside` takes for
values from outside (the compiler gives no such argument to an allocation).

### Removing duplicate Dim operations (C117)

`Verif/Dims/RemoveModel.lean` has the pass; it takes the sets that the analysis of C85 returns, in any order. The theorem on the values uses the soundness of
these sets from C85.

Not modelled: regions. For Dim operations of one set in different blocks the code calls `isBeforeInBlock`, which asserts that the block is the same.

### Window operators (C118)

`Verif/Window/Model.lean` has the lowering over the real numbers. Floating-point rounding is not modelled; integer output types are not modelled (the code
computes the cosine in the output type).

Disagreements found: the constants of HammingWindow are rounded to five digits (`C118_hamming_false`), far above the precision of float32; the code adds
an int32 constant to the size, which is an assertion failure when the size is int64 (`C118_int64_false`).

### Options that select operations (C119)

`Verif/OptRegex/Model.lean` has the class. Matching of regular expressions is the function `rx`; `RxOk` is what is assumed of it (it is satisfiable:
`rxOk_exists`). The theorem for simple patterns is with the relation `Glob`, which knows nothing of regular expressions.

Disagreements found: with `M*,N.*` the name MatMul is not enabled (`C119_mixed_false`); an option with a name that contains ALL enables all operations
(`C119_inside_false`).

### Random operators (C120)

`Verif/Random/Model.lean` has the loops of the run-time library, the choice of the seed and the count of values. `srand` and `rand` are parameters. The
arithmetic is exact, except for the conversion of an integer to float32. Other element types than float32 and float64 are not modelled; nothing is said of the
distribution.

Disagreements found: `C120_seed_false` (RandomNormal for float64 does not call `srand`), `C120_nodes_false` (the compiler seeds with its time in seconds, so
operations without seeds get the same one), `C120_uniform_like_false` (no sizes are passed for unknown dimensions).

### Concat fused with Shape and Transpose (C121)

`Verif/Lower/ConcatFuseModel.lean` has the operator and the test of the fusion; the loop is proved to simulate that of Concat (C61) with permuted indices.

Disagreement found: the shape inference clamps start and end, the lowering does not (`C121_end_false`).

### Configuration files (C122)

`Verif/Config/Model.lean` has the scans of the command line, the default path, `JsonConfigObject` and the list of arguments of `main`. The JSON parser and printer and the file system are parameters. `Verif/Config/Spec.lean` has a grammar of command lines. The parser of options is not modelled: an option has the value of its last occurrence, and each occurrence is one word.

Disagreements found: with `-o b/n a/m` the file `b/omconfig.json` is looked for (`C122_default_false`); a named file that does not exist is silently ignored although `docs/JsonConfigFile.md` says otherwise (`C122_missing_false`).

### External commands (C123)

`Verif/Command/Model.lean` has the POSIX branches of `Command`, with the bits of the wait status of Linux. The system is a parameter: the current directory, which directories can be entered, fork, what a launched program does, and whether the wait is interrupted.

Disagreement found: `waitpid` is not repeated after an interruption, and its status is used (`C123_interrupted_false`).

### Import of constant tensors (C124)

`Verif/TensorProto/Model.lean` has the reading of external data, the casts of bytes, the swaps for hosts with the most significant byte first, the typed fields, and the writes to the buffer, which is not initialised. `getFileSlice` of LLVM is a parameter. Strings are not modelled.

Disagreements found: the size of the data is not compared with the shape, so that a model can make the compiler write outside of a buffer (`C124_size_false`; the checker of ONNX is not called); a directory that is a link leads outside of the directory of the model (`C124_link_false`); offsets with a zero in front are octal (`C124_octal_false`).

### Changes of layout (C125)

`Verif/Layout/Model.lean` has the inspection of the maps, the choice between copies of tiles and of elements, the lengths of the copies, and the loops. The outer dimensions are one row index, and the indices of the memory before the last one are one number.

Disagreements found: from a layout without tiles to one with tiles whose size does not divide the rows, the last copy reads past the end of the input (`C125_read_false`; the comment in the code speaks only of the output); only the last result of a map is inspected, so that a map like `(r, e) -> (r, e floordiv 8, e mod 16)` is copied wrongly (`C125_map_false`).

### Statistics of operations (C126)

`Verif/OpStats/Model.lean` has the names of operations, the counts, the sort and the text. The walk is a list of operations; the JSON grammar is the one of C110, to which the empty object was added.

Disagreements found: operands of unknown rank are documented as `.unranked`, but their rank is asked for, which asserts (`C126_unranked_false`); the test for scalars looks into sequences and optionals for a rank, and then casts the sequence itself to a shaped type (`C126_sequence_false`).

### Elimination of common subexpressions with node names (C127)

`Verif/Cse/Model.lean` has the names that are saved, their removal, MLIR's elimination in a block, and the restoring of names. Operations have one result and no regions; the meaning of operations is a parameter, with or without side effects.

### Reading signatures at run time (C128)

`Verif/SigParse/Model.lean` has the reader character by character, with `strtoll`. The texts are those that C110 proves a compiled model to return. Overrides of shapes and values are not modelled.

Disagreements found: a model with a sequence among its inputs, or without inputs, is refused (`C128_sequence_false`, `C128_empty_false`).

### Shapes of inputs made at run time (C129)

`Verif/InputShapes/Model.lean` has the checks of entries, the overrides, the merge with the signature and the check for sizes that are still unknown. The splitting of the option into entries and numbers is not modelled.

Disagreement found: an entry with more dimensions than its input has is accepted, and the rest of it is not looked at (`C129_rank_false`).

### Tensors with rows of ones and zeros (C130)

`Verif/Soz/Model.lean` has the buffer as a list of elements, where a write outside is a fault. The numbers of the random generator are a parameter with the bounds of the distribution.

Disagreement found: with random numbers of ones and a last dimension of zero, one element is written into a buffer without elements (`C130_empty_rows_false`).

### Tensors of strings in one buffer (C131)

`Verif/StrBuf/Model.lean` has the characters of the buffer as memory that is not initialised, where a write outside is a fault; reading stops at the first character 0 and fails on memory that nobody has written. The array of pointers is kept apart from the characters.

Disagreement found: strings with the character 0 are cut there (`C131_cut_false`).

### Tensors with random integers (C132)

`Verif/RandInt/Model.lean` has the conversions of the bounds to the type of the distribution and of its numbers to the element type. The random generator is a parameter that keeps to its bounds.

Disagreement found: unsigned bounds of 32 and 64 bits are converted to signed ones, so a range across the middle gives a distribution with its bounds in the wrong order, which is undefined behaviour (`C132_unsigned_false`).

### Memory of inputs made at run time (C133)

`Verif/MakeInputs/Model.lean` has what is allocated, with a fault for the release of something that is not. Which tensors and allocations succeed is a parameter.

Disagreement found: when the list cannot be allocated after all inputs are made, the inputs are not released (`C133_leak_false`).

### Values of inputs made at run time (C134)

`Verif/InputValues/Model.lean` has the words of entries, the check of combinations and the choice of bounds. The splitting of the option into entries, words and numbers is not modelled.

## Not modelled

The MLIR infrastructure (pattern driver, dialect conversion, bufferization), LLVM code generation, the
accelerator hardware, the Python and Java bindings, the command line driver's process handling, and the
operating system below the calls named above.
