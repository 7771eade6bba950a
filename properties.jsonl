{"id": "C01", "title": "Row-major addressing of runtime tensors", "statement": "A tensor made by omTensorCreate gets strides under which every in-bounds multi-index addresses the row-major position of the element: distinct in-bounds indices never share an address, every address is below the element count, and every address below the element count is hit. No intermediate product or partial sum exceeds the element count, so 64-bit arithmetic cannot overflow when the tensor fits in memory.", "quantifier": "every rank, every shape, every in-bounds index", "why_tests_cant": "Rank and extents are unbounded; a test fixes a few shapes.", "anchors": ["src/Runtime/OMTensor.inc: omTensorCreate, computeElemOffset, inner_product, getNumElems"]}
{"id": "C02", "title": "Index enumeration visits each element exactly once in order", "statement": "omTensorComputeIndexSet returns the list of all in-bounds multi-indices, each exactly once, in row-major order, so that the n-th index addresses linear position n.", "quantifier": "every shape of every rank", "why_tests_cant": "Completeness and absence of duplicates range over all shapes.", "anchors": ["src/Runtime/OMTensor.inc: omTensorComputeIndexSet, CartProduct"]}
{"id": "C03", "title": "Tensor buffer ownership", "statement": "For every sequence of create, create-with-ownership, set-ownership, set-data-pointer, destroy, list-create, list-destroy and shallow list-destroy calls in which no live handle is destroyed twice and no two live tensors own the same allocation, no allocation is freed twice, no freed allocation is dereferenced by the library, and an allocation the runtime never owned is never freed by it.", "quantifier": "every history of API calls, of every length", "why_tests_cant": "Double frees appear only on particular call histories.", "anchors": ["src/Runtime/OMTensor.inc: omTensorDestroy, omTensorSetDataPtr, omTensorSetOwning", "src/Runtime/OMTensorList.inc: omTensorListDestroy, omTensorListDestroyShallow"]}
{"id": "C04", "title": "Tensor list access is bounds safe", "statement": "omTensorListGetOmtByIndex returns the i-th tensor given at creation for 0 <= i < size and NULL for every other index, and never reads outside the array; the list is unaffected by later writes to the caller's array.", "quantifier": "every list, every 64-bit index", "why_tests_cant": "The index space is 2^64.", "anchors": ["src/Runtime/OMTensorList.inc: omTensorListCreate, omTensorListGetOmtByIndex"]}
{"id": "C05", "title": "Tolerance comparison of tensors", "statement": "omTensorAreTwoOmtsClose answers true exactly when shapes agree and every pair of corresponding elements satisfies |a-b| <= atol + rtol*|b|.", "quantifier": "every pair of tensors, every tolerance (exact arithmetic)", "why_tests_cant": "A comparison that skips an element or a boundary passes on the tensors tried.", "anchors": ["src/Runtime/OMTensor.inc: omTensorAreTwoOmtsClose"]}
{"id": "C06", "title": "Sort yields the stable sorted order for every pivot choice", "statement": "omTensorSort along the last axis turns the identity order into a permutation of the indices of each slice, sorted in the requested direction, with equal values in increasing index order, whatever pivots the random generator picks and whatever the other slices hold.", "quantifier": "every slice content, both directions, every sequence of random pivots", "why_tests_cant": "Pivots are random; the number of schedules is unbounded.", "anchors": ["src/Runtime/OMSort.c: quick_sort_partition, quick_sort_custom, compareFunctionBody, omTensorSort"]}
{"id": "C07", "title": "Non-recursive quicksort never overruns its stack", "statement": "The explicit stack of the custom quicksort, sized 2*(log2(n+1)+2), is never indexed outside its bounds and the sort terminates.", "quantifier": "every length, every content, every sequence of random pivots", "why_tests_cant": "Only adversarial pivot sequences reach the maximum depth.", "anchors": ["src/Runtime/OMSort.c: quick_sort_custom, log2u"]}
{"id": "C08", "title": "TopK returns the k best elements in stable order", "statement": "omTensorTopK leaves in the first k slots the indices of the k best elements (largest or smallest), best first, ties resolved to the lower index.", "quantifier": "every slice, every k, both directions", "why_tests_cant": "Tie handling depends on heap shape for each input.", "anchors": ["src/Runtime/OMTopK.c: heap_sift_down, make_heap, omTensorTopK"]}
{"id": "C09", "title": "Unique outputs are mutually consistent", "statement": "omTensorUnique returns pairwise different values covering exactly the input's values, sorted ascending when requested and in first-occurrence order otherwise; indices give each value's first occurrence; the inverse map rebuilds the input; counts are the multiplicities.", "quantifier": "every input, sorted and unsorted mode", "why_tests_cant": "The four outputs must agree for every input.", "anchors": ["src/Runtime/OMUnique.c: sliceTableRegister, isLessSlice, produceY, omTensorUnique"]}
{"id": "C10", "title": "Compile-time perfect hash answers every runtime lookup", "statement": "Whenever building the perfect hash for a dictionary finishes, every key maps to its own slot, distinct keys to distinct slots, and the runtime lookup followed by the key comparison returns the stored value for keys and the default for every non-key, including keys with the same hash.", "quantifier": "every finite dictionary and every queried key", "why_tests_cant": "A non-key colliding with a slot is one in 2^32.", "anchors": ["src/Conversion/ONNXToKrnl/PerfectHash.cpp: createPerfectHash", "src/Runtime/OMIndexLookup.c: find_index_str, find_index_i64, hash_string, hash_int64"]}
{"id": "C11", "title": "Perfect hash construction terminates", "statement": "Building the perfect hash finishes for every dictionary of distinct keys.", "quantifier": "every finite set of distinct keys", "why_tests_cant": "Termination cannot be observed by a test.", "anchors": ["src/Conversion/ONNXToKrnl/PerfectHash.cpp: createPerfectHash"]}
{"id": "C12", "title": "Constant file loading is exact under short reads", "statement": "Reading the external constants file in chunks produces exactly the file's bytes and reports success if and only if the requested number of bytes was obtained, whatever partial amounts each read call returns.", "quantifier": "every file content, requested size, and sequence of short reads or errors", "why_tests_cant": "The kernel chooses the short reads.", "anchors": ["src/Runtime/OMExternalConstant.c: mallocAndReadFile, omLoadConstantData"]}
{"id": "C13", "title": "Constant loading histories are safe", "statement": "For every sequence of load, use and unload calls, a successful load means the constants are readable, a second load does not read the file again, and no unload frees memory twice.", "quantifier": "every call history, including failing reads", "why_tests_cant": "Failure followed by retry is a history property.", "anchors": ["src/Runtime/OMExternalConstant.c: omLoadConstantData, omUnloadConstantData, omGetExternalConstantAddr"]}
{"id": "C14", "title": "float32 to bfloat16 rounds to nearest even", "statement": "Conversion to bfloat16 maps every finite float32 to a nearest bfloat16 with ties to even, overflows to infinity only beyond the halfway point, keeps infinities and signs, and maps NaN to NaN.", "quantifier": "all 2^32 float32 bit patterns", "why_tests_cant": "2^32 patterns with tie cases at each exponent.", "anchors": ["src/Support/SmallFPConversion.c: om_f32_to_bf16"]}
{"id": "C15", "title": "bfloat16 survives a round trip through float32", "statement": "Widening a bfloat16 to float32 is exact, and narrowing it back returns the same bits; NaN stays NaN.", "quantifier": "all bit patterns", "why_tests_cant": "Needs all patterns, including NaN payloads.", "anchors": ["src/Support/SmallFPConversion.c: om_bf16_to_f32, om_f32_to_bf16"]}
{"id": "C16", "title": "float16 widening is exact", "statement": "om_f16_to_f32 returns the float32 with the same real value for every finite float16, including subnormals and signed zeros, and maps infinities and NaNs to infinities and NaNs.", "quantifier": "all 2^16 float16 bit patterns", "why_tests_cant": "Subnormals go through floating-point rescaling.", "anchors": ["src/Support/SmallFPConversion.c: om_f16_to_f32"]}
{"id": "C17", "title": "float32 to float16 rounds to nearest even", "statement": "om_f32_to_f16 maps every float32 to the nearest float16, ties to even, with overflow to infinity and NaN to NaN, and inverts the widening on every float16.", "quantifier": "all 2^32 float32 bit patterns", "why_tests_cant": "2^32 patterns; the algorithm relies on rounding of float additions.", "anchors": ["src/Support/SmallFPConversion.c: om_f32_to_f16"]}
{"id": "C18", "title": "NNPA DLF16 conversion round trip", "statement": "Converting a 16-bit NNPA number (1-6-9 format) to float32 and back returns the same bits for every number in the format's finite range.", "quantifier": "all 2^16 bit patterns", "why_tests_cant": "Rounding and range clamps interact at each exponent.", "anchors": ["src/Accelerators/NNPA/Support/Stickify/DLF16Conversion.hpp"]}
{"id": "C19", "title": "Strided iteration follows row-major order", "statement": "Iterating a strided constant yields every index in row-major order and the running offsets always equal the dot product of index and strides.", "quantifier": "every shape, every number of strided operands, every stride vector", "why_tests_cant": "Carry logic depends on rank and extents.", "anchors": ["src/Dialect/ONNX/ElementsAttr/StridesRange.hpp.inc: StridesIterator::operator++", "src/Dialect/ONNX/ElementsAttr/Strides.cpp: getStridesPosition, restrideArray"]}
{"id": "C20", "title": "Constant transpose without copying is transpose", "statement": "Transposing a strided constant by permuting strides yields, at each index, the element the mathematical transpose has there; transposing by a permutation and then its inverse gives the original.", "quantifier": "every shape, strides, permutation and index", "why_tests_cant": "Rank and permutation are unbounded.", "anchors": ["src/Dialect/ONNX/ElementsAttr/ElementsAttrBuilder.cpp: transpose", "src/Dialect/ONNX/ElementsAttr/Strides.cpp: transposeDims, untransposeDims"]}
{"id": "C21", "title": "Constant reshape without copying preserves row-major order", "statement": "When the stride computation for a reshape succeeds, the reshaped view reads the same elements in the same row-major order as the original; otherwise the data is copied into row-major order, so reshape never changes the flat sequence of elements.", "quantifier": "every shape, broadcast or transposed stride vector and target shape with the same element count", "why_tests_cant": "The factoring of extents into stride blocks has unboundedly many shapes.", "anchors": ["src/Dialect/ONNX/ElementsAttr/Strides.cpp: reshapeStrides, areStridesContiguous", "src/Dialect/ONNX/ElementsAttr/ElementsAttrBuilder.cpp: reshape"]}
{"id": "C22", "title": "Constant expand is ONNX broadcasting", "statement": "Expanding a constant to a broadcast-compatible shape without copying yields at each index the element selected by numpy broadcasting.", "quantifier": "every broadcast-compatible pair of shapes", "why_tests_cant": "Rank and extents are unbounded.", "anchors": ["src/Dialect/ONNX/ElementsAttr/Strides.cpp: expandStrides", "src/Dialect/ONNX/ElementsAttr/ElementsAttrBuilder.cpp: expand"]}
{"id": "C23", "title": "Folding an elementwise binary op equals evaluating it", "statement": "Combining two constants gives at each output index the function of the two broadcast operands, and the shortcuts for splat operands give the same result as the general path.", "quantifier": "every function, shapes, strides and splat/non-splat combination", "why_tests_cant": "Four code paths must agree on all inputs.", "anchors": ["src/Dialect/ONNX/ElementsAttr/ElementsAttrBuilder.cpp: combine, expandAndTransform, where"]}
{"id": "C24", "title": "Splitting and concatenating constants are inverse", "statement": "Splitting a constant along an axis into sizes that sum to the extent and concatenating the pieces gives the original; each piece holds exactly its window of the input.", "quantifier": "every shape, axis and list of sizes", "why_tests_cant": "Sizes may include zero; block arithmetic differs per rank.", "anchors": ["src/Dialect/ONNX/ElementsAttr/ElementsAttrBuilder.cpp: split, splitImpl, concat"]}
{"id": "C25", "title": "Constant slicing reads the right elements", "statement": "Slicing a constant reads element start + i*step on every axis, for positive and negative steps.", "quantifier": "every shape, strides, starts, steps in range", "why_tests_cant": "Step signs and ranks multiply.", "anchors": ["src/Dialect/ONNX/ElementsAttr/ElementsAttrBuilder.cpp: slice"]}
{"id": "C26", "title": "Constant padding writes every output element exactly once", "statement": "Padding a constant copies each input element to its shifted position and the pad value everywhere else; the output cursor ends exactly at the end of the output.", "quantifier": "every shape and non-negative pads", "why_tests_cant": "The code folds pads of neighbouring rows together; off-by-one effects depend on rank.", "anchors": ["src/Dialect/ONNX/ElementsAttr/ElementsAttrBuilder.cpp: pad"]}
{"id": "C27", "title": "Constant gather follows ONNX Gather", "statement": "Gathering from a constant picks data[index] along the axis for each index in [-s, s), negative indices counting from the end.", "quantifier": "every data shape, axis and index tensor", "why_tests_cant": "Index tensors are unbounded.", "anchors": ["src/Dialect/ONNX/ElementsAttr/ElementsAttrBuilder.cpp: gather"]}
{"id": "C28", "title": "Constant ScatterND follows ONNX ScatterND", "statement": "ScatterND on constants writes update slices at the addressed positions for each index tuple with entries in [-s, s), and leaves other elements alone.", "quantifier": "every data, index and update tensor", "why_tests_cant": "Negative indices must be covered for each rank.", "anchors": ["src/Dialect/ONNX/ElementsAttr/ElementsAttrBuilder.cpp: scatterND"]}
{"id": "C29", "title": "Parallel constant folding covers every element once", "statement": "Dividing work over threads assigns every element to exactly one thread, so the result equals the sequential one for every number of threads and every interleaving.", "quantifier": "every element count, thread count and schedule", "why_tests_cant": "Thread count and interleaving vary by machine.", "anchors": ["src/Dialect/ONNX/ElementsAttr/ElementsAttrBuilder.hpp: functionTransformer", "src/Dialect/ONNX/ElementsAttr/ElementsAttrBuilder.cpp: reduce"]}
{"id": "C30", "title": "Constant pool never frees a reachable constant", "statement": "Through any history of creating constants, garbage collection, scrubbing and closing, a constant still used by the program is never released, garbage collection releases every unused one, and after closing nothing is kept.", "quantifier": "every history of pool operations and reachability changes", "why_tests_cant": "Use-after-free is history dependent.", "anchors": ["src/Dialect/ONNX/ElementsAttr/DisposablePool.cpp: insert, garbageCollectUnreachable, scrub, close, eraseUnreachable"]}
{"id": "C31", "title": "Parallel scrubbing translates each constant exactly once", "statement": "When constants are replaced in parallel, every constant is translated by exactly one worker, for every interleaving of workers and every batch size.", "quantifier": "every interleaving of any number of workers", "why_tests_cant": "Schedules are unbounded.", "anchors": ["src/Dialect/ONNX/ElementsAttr/DisposablePool.cpp: scrub"]}
{"id": "C32", "title": "Slice shape inference follows the ONNX definition", "statement": "For every dimension, start, end and non-zero step, the start and output size computed for Slice select exactly the elements of the ONNX (numpy) slice, at compile time and at run time alike.", "quantifier": "all integers dim >= 0, start, end, step != 0", "why_tests_cant": "Four signed parameters with clamping; a boundary is easily missed.", "anchors": ["src/Dialect/ONNX/ONNXOps/Tensor/Slice.cpp: computeShape", "src/Dialect/Mlir/IndexExpr.cpp: clamp, select, ceilDiv"]}
{"id": "C33", "title": "Index expressions mean the same at compile time and run time", "statement": "An index expression built from known and unknown operands evaluates, for every value of the unknowns, to what it gives when those values are known at compile time, and shape inference never reports a known value that differs from the runtime one.", "quantifier": "every expression tree and valuation", "why_tests_cant": "Each operator has literal, affine and value paths for all operands.", "anchors": ["src/Dialect/Mlir/IndexExpr.cpp: binaryOp, compareOp, reductionOp, clamp, select, floorDiv, ceilDiv, operator%"]}
{"id": "C34", "title": "Broadcast shape inference is sound", "statement": "When broadcasting succeeds at compile time, the inferred output shape agrees in every known dimension with the true broadcast shape for every runtime shape of the inputs that is valid, and generated code computes the true broadcast shape.", "quantifier": "every number of operands, ranks and mixes of known and unknown dimensions", "why_tests_cant": "Unknown dimensions stand for unboundedly many runtime shapes.", "anchors": ["src/Dialect/ONNX/ONNXOps/ShapeHelper.cpp: ONNXBroadcastOpShapeHelper::customComputeShape"]}
{"id": "C35", "title": "Reshape shape inference preserves the element count", "statement": "With at most one -1 and zeros meaning copy, the computed output shape has as many elements as the input and agrees with the request in every other position.", "quantifier": "every data shape and request", "why_tests_cant": "Unbounded ranks and extents.", "anchors": ["src/Dialect/ONNX/ONNXOps/Tensor/Reshape.cpp: computeShape"]}
{"id": "C36", "title": "Split sizes partition the axis as ONNX prescribes", "statement": "Without explicit sizes, Split into n outputs gives sizes that sum to the axis extent, all equal except that the last may be smaller.", "quantifier": "every extent and number of outputs", "why_tests_cant": "Divisibility cases are unbounded.", "anchors": ["src/Dialect/ONNX/ONNXOps/Tensor/Split.cpp: customComputeShape"]}
{"id": "C37", "title": "Concat output extents", "statement": "Concat's output extent on the axis is the sum of the inputs' extents and on other axes the common extent, with known dimensions preferred, for every mix of known and unknown extents.", "quantifier": "every list of inputs", "why_tests_cant": "Number of inputs unbounded.", "anchors": ["src/Dialect/ONNX/ONNXOps/Tensor/Concat.cpp: computeShape"]}
{"id": "C38", "title": "Squeeze and Unsqueeze are inverse", "statement": "Unsqueeze inserts ones exactly at the requested (possibly negative) axes of the output, and Squeeze on those axes restores the original shape; invalid or duplicate axes are rejected.", "quantifier": "every shape and axis list", "why_tests_cant": "Axis lists are unordered and may be negative.", "anchors": ["src/Dialect/ONNX/ONNXOps/Tensor/Squeeze.cpp", "src/Dialect/ONNX/ONNXOps/Tensor/Unsqueeze.cpp"]}
{"id": "C39", "title": "Resize interpolation weights are a partition of unity and reads stay in range", "statement": "Every neighbour index read by the resize runtime lies inside the data, interpolation weights for linear, nearest and cubic modes sum to one (so constant images stay constant), and at integer coordinates the sample itself is returned.", "quantifier": "every data length, coordinate and mode (exact arithmetic)", "why_tests_cant": "Coordinates are continuous.", "anchors": ["src/Runtime/OMResize.c: get_neighbor_idxes, interpolate_1d, linear_coeffs, cubic_coeffs, nearest_coeffs"]}
{"id": "C40", "title": "Axis normalisation", "statement": "An axis is accepted exactly when it lies in [-rank, rank) (or [-rank, rank] when the rank itself is allowed), and the normalised axis is the same axis counted from the front.", "quantifier": "every axis and rank", "why_tests_cant": "Both are unbounded integers.", "anchors": ["src/Dialect/ONNX/ONNXOps/ShapeHelper.cpp: isAxisInRange, getAxisInRange"]}
{"id": "C41", "title": "Element access by index in large tensors", "statement": "The C++ element accessor of the runtime tensor addresses the row-major position of every in-bounds index, for every tensor whose element count fits in 64 bits.", "quantifier": "every shape, every in-bounds index", "why_tests_cant": "The failure needs tensors with more than 2^31 elements.", "anchors": ["src/Runtime/OMTensor.inc: computeElemOffset (C++), omTensorGetElem, omTensorGetElemByOffset"]}
{"id": "C42", "title": "Packed constants can be read back", "statement": "When constants are written to the external file, every constant's bytes are found at its recorded offset, constants do not overlap, and each offset respects the constant's alignment, so loading the file gives every constant its own data.", "quantifier": "every list of constants with any sizes and alignments", "why_tests_cant": "Padding depends on every combination of sizes and alignments.", "anchors": ["src/Conversion/KrnlToLLVM/ConvertKrnlToLLVM.cpp: extractConstantsToFile, emitLoadConstantDataFunc", "src/Runtime/OMExternalConstant.c: omGetExternalConstantAddr"]}
{"id": "C43", "title": "float32 to DLF16 rounds to nearest", "statement": "Converting a float32 to the NNPA 16-bit format keeps the sign and returns the nearest number of the format, ties away from zero, and the special NINF value for infinities, NaN and values that round beyond the largest number.", "quantifier": "all 2^32 float32 bit patterns", "why_tests_cant": "2^32 patterns; carries out of the fraction, underflow and overflow interact.", "anchors": ["src/Accelerators/NNPA/Support/Stickify/DLF16Conversion.hpp: NNP1::convert(const float &)"]}
{"id": "C44", "title": "All ways of reading a constant agree", "statement": "For every constant a program can hold (after any sequence of transposing, expanding, reshaping and element-wise transforming), random access by flat position, the bulk read of all elements, and the splat value when the constant reports itself as a splat give the same elements, and no read leaves the stored buffer.", "quantifier": "every constant reachable by builder operations, every position", "why_tests_cant": "Strides, transformers and shapes compose in unboundedly many ways.", "anchors": ["src/Dialect/ONNX/ElementsAttr/DisposableElementsAttr.cpp: atFlatIndex, flatIndexToBufferPos, readWideNums, isSplat", "src/Dialect/ONNX/ElementsAttr/Strides.cpp: unflattenIndex"]}
{"id": "C45", "title": "Broadcast operands are read at the right element", "statement": "When an elementwise operation loads an operand at the position of an output element, the indices it uses are inside the operand and are those that broadcasting prescribes: the output index, or 0 on an axis that is broadcast or that the operand does not have.", "quantifier": "every number of operands, ranks, mixes of known and unknown extents, and every output position", "why_tests_cant": "Shapes and positions are unbounded, and unknown extents are only decided at run time.", "anchors": ["src/Dialect/ONNX/ONNXOps/ShapeHelper.cpp: ONNXBroadcastOpShapeHelper::getAccessExprs, hasNoBroadcast"]}
{"id": "C46", "title": "Collapsing inner loops for SIMD does not change what is computed", "statement": "When inner dimensions are collapsed for vectorisation, every operand either has the same flattened inner extents as the output or a single element there, so a flat loop reads the same element as the nested loops.", "quantifier": "every list of operand shapes and collapse level", "why_tests_cant": "Ranks and operand counts are unbounded.", "anchors": ["src/Dialect/ONNX/ONNXOps/ShapeHelper.cpp: hasManageableBroadcastForInnerDims"]}
{"id": "C47", "title": "Resize in nearest mode copies the nearest element", "statement": "For every output position the generated loops read, along each axis, the input element at the coordinate rounded as nearest_mode says, moved to the border if outside, and never outside the input.", "quantifier": "every scale, extent, output index, rounding and coordinate mode (exact arithmetic)", "why_tests_cant": "Scales are continuous and the rounding boundary cases are rare.", "anchors": ["src/Conversion/ONNXToKrnl/Tensor/Resize.cpp: matchAndRewrite"]}
{"id": "C48", "title": "Constant reductions fold exactly the right elements", "statement": "Folding a reduction of a non-empty constant at compile time over a set of distinct axes gives, at every index of the result, the left fold in row-major order of exactly those input elements whose index agrees with it on the remaining axes. The result shape drops the axes or keeps them with extent 1, as asked.", "quantifier": "all constants however built (buffers, splats, transposes, broadcasts), all axis lists in any order, keepdims on or off, every reduction function", "why_tests_cant": "Ranks, extents, axis sets and stride patterns are unbounded; reduction order matters for floating point.", "anchors": ["src/Dialect/ONNX/ElementsAttr/ElementsAttrBuilder.cpp:reduce", "src/Dialect/ONNX/ElementsAttr/StridesRange.hpp"]}
{"id": "C49", "title": "Constant matrix products", "statement": "Folding a matrix product of constants gives at every index the sum over the inner dimension, in order, of products of the matching elements, with broadcast batch dimensions and with vector operands handled as in numpy. No element outside the operands is read.", "quantifier": "all operand ranks at least 1, all extents including zero, all broadcastable batch shapes, all operand layouts", "why_tests_cant": "Shapes, batch broadcasts and operand layouts are unbounded.", "anchors": ["src/Dialect/ONNX/ElementsAttr/ElementsAttrBuilder.cpp:matMul"]}
{"id": "C50", "title": "Comparing constants", "statement": "Two constants are reported equal exactly if all their elements agree after broadcasting; a constant is reported as filled with one number exactly if every element equals it.", "quantifier": "all constants however built, all broadcastable shapes", "why_tests_cant": "A wrong answer for a single layout enables a wrong rewrite; layouts and shapes are unbounded.", "anchors": ["src/Dialect/ONNX/ElementsAttr/ElementsAttrBuilder.cpp:equal", "src/Dialect/ONNX/ElementsAttr/ElementsAttrBuilder.cpp:allEqual"]}
{"id": "C51", "title": "Casts of constants", "statement": "Casting a floating point constant to an integer type gives the truncated (or, on request, nearest-even rounded) value clamped to the range of the type, zero for NaN, and never invokes an undefined conversion. Saturating casts to narrow floats clamp and keep NaN. Casting to bool maps only zero to false. Casting between integers keeps the low bits.", "quantifier": "all doubles, all integer widths from 2 to 64, signed and unsigned, both rounding modes", "why_tests_cant": "There are 2^64 doubles, and the conversion of the limits to double rounds for wide types.", "anchors": ["src/Dialect/ONNX/ElementsAttr/ElementsAttrBuilder.cpp:convertIntFromDouble", "src/Dialect/ONNX/ElementsAttr/ElementsAttrBuilder.cpp:castToIntElementType", "src/Dialect/ONNX/ElementsAttr/ElementsAttrBuilder.cpp:castToFPElementType"]}
{"id": "C52", "title": "Constant ranges and non-zero indices", "statement": "A folded range holds start plus i increments at position i. A folded non-zero query returns a matrix whose column t is the index of the t-th non-zero element in row-major order.", "quantifier": "all lengths, starts and increments; all constants of rank at least 1", "why_tests_cant": "Lengths, shapes and contents are unbounded.", "anchors": ["src/Dialect/ONNX/ElementsAttr/ElementsAttrBuilder.cpp:range", "src/Dialect/ONNX/ElementsAttr/ElementsAttrBuilder.cpp:nonZero"]}
{"id": "C53", "title": "Loop schedules run every iteration exactly once", "statement": "However the loops of a lowered operator are blocked and permuted, the loop body is executed exactly once for every index tuple within the declared bounds and never for any other, including when a tile size does not divide the trip count; blocking alone also keeps the original execution order.", "quantifier": "every number of loops, every accepted sequence of block and permute operations with any tile sizes, every lower and upper bound", "why_tests_cant": "Tests run a few shapes and the schedules chosen for them; missing or repeated iterations show only for particular combinations of tile size, trip count and nesting.", "anchors": ["src/Conversion/KrnlToAffine/ConvertKrnlToAffine.cpp: lowerIterateOp, KrnlBlockOp, KrnlPermuteOp", "src/Dialect/Krnl/DialectBuilder.cpp: blockAndPermute"]}
{"id": "C54", "title": "The matrix product kernel computes the clipped tile", "statement": "One matrix product kernel adds to every element of its destination tile, clipped to the matrix bounds, the sum of the products over the clipped reduction tile; it writes nothing else and never accesses memory outside of its buffers, whatever mixture of static and dynamic bounds, simd and unrolling was chosen.", "quantifier": "every tile start, tile size, static or dynamic bound, buffer offset, machine vector length that is a power of two, and every memory content over any semiring", "why_tests_cant": "The kernel has scalar, simd, partial and matrix-vector variants selected by run-time tests; a finite test matrix cannot cover all boundary positions and combinations.", "anchors": ["src/Conversion/KrnlToAffine/KrnlMatmul.cpp: KrnlMatmulLowering, genScalar, genSimdMatMat, genSimdMatVect",  "src/Dialect/Mlir/DialectBuilder.cpp: multiReduction", "src/Dialect/Mlir/IndexExprBuilder.cpp: tileSize, isTileFull, partialTileSize"]}
{"id": "C55", "title": "MatMul returns the matrix product for all shapes", "statement": "MatMul of two tensors whose shapes are compatible under NumPy rules returns, for every batch index and every row and column, the sum over the common dimension of the products, with the batch dimensions broadcast; it never reads outside of its inputs.", "quantifier": "every pair of compatible shapes, static or dynamic, every content over any semiring, every tiling and simd choice of the compiler", "why_tests_cant": "The lowering selects one of four algorithms and heuristic tile sizes from the shapes; tests sample shapes, and broadcasting of unit dimensions and empty or unknown dimensions form infinitely many cases.", "anchors": ["src/Conversion/ONNXToKrnl/Math/MatMul.cpp: replaceGenericMatmul, replace2x2Matmul2d, replace2x2Matmul2dBroadcasting, computeTileSizeForMatMatProduct, computeTileSizeForMatVectProduct", "src/Dialect/ONNX/ONNXOps/Math/MatMul.cpp: computeShape", "src/Dialect/ONNX/ONNXOps/ShapeHelper.cpp: updateInputDimAt"]}
{"id": "C56", "title": "Gemm returns alpha*op(A)*op(B)+beta*C for all shapes", "statement": "Gemm accepts exactly the shapes ONNX allows (two matrices with a common dimension and an optional bias that broadcasts to the result) and returns alpha times the product of the optionally transposed operands plus beta times the broadcast bias, for every element, reading and writing only inside of its buffers, with the tiled algorithm (with or without copies of the operand tiles) as well as with the simple one.", "quantifier": "every matrix size (also zero and sizes that are not multiples of a tile), both transpose flags, static or dynamic dimensions, every bias shape, every alpha and beta, every content over any commutative semiring", "why_tests_cant": "The tiled version copies partial tiles into buffers and selects loop orders and SIMD from the sizes; only finitely many sizes can be tested.", "anchors": ["src/Conversion/ONNXToKrnl/Math/Gemm.cpp: genericGemm, tiledTransposedGemm", "src/Dialect/ONNX/ONNXOps/Math/Gemm.cpp: computeShape", "src/Conversion/KrnlToAffine/KrnlCopyToBuffer.cpp", "src/Conversion/KrnlToAffine/KrnlCopyFromBuffer.cpp"]}
{"id": "C57", "title": "SIMD element-wise loops compute every element and nothing else", "statement": "A vectorised element-wise operation produces at every index the value of the scalar operation on the original inputs, also when it runs in place; elements outside of the (padded) output are unchanged; a loop without scalar remainder has a trip count that is a multiple of the vector length unless computing past the end is allowed, and then the padded allocation contains everything written. No access is out of bounds.", "quantifier": "every number of elements known or unknown at compile time, every vector length, unrolling, element width, every number of inputs and outputs, absent, scalar or vector inputs, aliased or not", "why_tests_cant": "The remainder handling depends on the sizes at run time and on vector lengths of machines the tests do not run on; reading past the end usually goes unnoticed in a test.", "anchors": ["src/Dialect/Mlir/DialectBuilder.hpp.inc: simdIterateIE", "src/Conversion/ONNXToKrnl/ONNXToKrnlCommon.cpp: computeSuitableSimdUnrollFactor, isOverComputeSafe", "src/Dialect/Mlir/DialectBuilder.cpp: alignedAllocWithSimdPadding", "src/Conversion/ONNXToKrnl/Math/Elementwise.cpp"]}
{"id": "C58", "title": "Reductions compute the ONNX reduction whatever code is generated", "statement": "For every input tensor, every list of axes (positive, negative, repeated, absent, or known only at run time), keepdims and noop_with_empty_axes, every element of the result of ReduceSum, ReduceMean, ReduceProd, ReduceMax and ReduceMin is the reduction of exactly the input elements whose remaining coordinates match, divided by their number for the mean; the result does not depend on whether the compiler generates scalar loops, SIMD code with a remainder loop, shuffled SIMD code for several rows, or a sequential or parallel reduction of the whole tensor.", "quantifier": "all element types with associative commutative operations, all ranks and dimension sizes, all axes, all vector lengths, literal or run-time trip counts, one or eight threads", "why_tests_cant": "The code paths depend on sizes, vector length, machine and options; the double counting in the parallel version only shows for a few run-time sizes, and tests check a handful of static shapes.", "anchors": ["src/Conversion/ONNXToKrnl/Math/Reduction.cpp: ONNXReductionOpLowering, emitFullSIMDReductionFor, emitOneStepOfFullSIMDReduction", "src/Dialect/Mlir/DialectBuilder.hpp.inc: simdReduceIE, simdReduce2DIE", "src/Dialect/Krnl/DialectBuilder.cpp: forExplicitParallelLoopIE", "src/Conversion/ONNXToKrnl/ONNXToKrnlCommon.cpp: getReductionMapping", "src/Dialect/ONNX/ONNXOps/Math/Reduction.cpp: customComputeShape"]}
{"id": "C59", "title": "Gathering operators read exactly the selected elements", "statement": "For every data tensor and every index tensor accepted by ONNX, Gather, GatherElements and GatherND return a tensor of the specified shape whose elements are the data elements selected by the indices, negative indices counting from the end; with safe code generation no index value at all makes Gather or GatherElements read outside the data.", "quantifier": "all ranks, shapes, axes, batch dimensions and index values", "why_tests_cant": "the index arithmetic depends on rank, axis position and the sign of every run-time index; tests use a few ranks and mostly non-negative indices", "anchors": ["src/Conversion/ONNXToKrnl/Tensor/Gather.cpp:ONNXGatherOpLowering", "src/Conversion/ONNXToKrnl/Tensor/GatherElements.cpp:ONNXGatherElementsOpLowering", "src/Conversion/ONNXToKrnl/Tensor/GatherND.cpp:ONNXGatherNDOpLowering", "src/Dialect/ONNX/ONNXOps/Tensor/Gather.cpp:ONNXGatherOpShapeHelper::computeShape"]}
{"id": "C60", "title": "Scattering operators and OneHot write exactly the selected elements", "statement": "ScatterElements and ScatterND return the data tensor with each update written (or, with a reduction attribute, combined) at the position given by its indices, other elements unchanged; OneHot returns the on value exactly where the index along the new axis equals the input index modulo the depth, and off values everywhere for an out-of-range input.", "quantifier": "all ranks, shapes, axes, index values (negative included) and reduction attributes", "why_tests_cant": "the target of a write is computed from run-time indices and from the ranks of three tensors; tests cover a few rank combinations", "anchors": ["src/Conversion/ONNXToKrnl/Tensor/ScatterElements.cpp:ONNXScatterElementsOpLowering", "src/Conversion/ONNXToKrnl/Tensor/ScatterND.cpp:ONNXScatterNDOpLowering", "src/Conversion/ONNXToKrnl/Tensor/OneHot.cpp:ONNXOneHotOpLowering"]}
{"id": "C61", "title": "Operators that rearrange data put every element in its place", "statement": "Concat, Split, Slice, Tile, Transpose and ReverseSequence return tensors of the specified shape in which every element is the input element that ONNX prescribes: nothing is lost, duplicated or read outside an input, whichever of the generated code variants (view, block copy, scalar loop) is chosen; splitting a concatenation gives the inputs back.", "quantifier": "all ranks, shapes, axes, permutations, numbers of operands, sizes and element values", "why_tests_cant": "the code chosen depends on rank, permutation and static knowledge of dimensions; tests sample a few shapes and permutations", "anchors": ["src/Conversion/ONNXToKrnl/Tensor/Concat.cpp:ONNXConcatOpLowering", "src/Conversion/ONNXToKrnl/Tensor/Split.cpp:ONNXSplitOpLoweringCommon", "src/Conversion/ONNXToKrnl/Tensor/Tile.cpp:ONNXTileOpLowering", "src/Conversion/ONNXToKrnl/Tensor/Slice.cpp:ONNXSliceOpLowering", "src/Conversion/ONNXToKrnl/Tensor/Transpose.cpp:ONNXTransposeOpLowering", "src/Conversion/ONNXToKrnl/Tensor/ReverseSequence.cpp:ONNXReverseSequenceOpLowering"]}
{"id": "C62", "title": "Pad surrounds the data as its mode says", "statement": "Pad returns the data shifted by the begin amounts (shortened for negative amounts), the new positions holding the constant, the nearest edge element, the reflected element or the wrapped element according to the mode.", "quantifier": "all ranks, shapes, pad amounts (negative and large ones included) and modes", "why_tests_cant": "the index computation has separate cases before, inside and after the data for every dimension, mode and amount", "anchors": ["src/Conversion/ONNXToKrnl/Tensor/Pad.cpp:ONNXPadOpLowering", "src/Dialect/ONNX/ONNXOps/Tensor/Pad.cpp:ONNXPadOpShapeHelper::computeShape"]}
{"id": "C63", "title": "DepthToSpace and SpaceToDepth exchange channels and pixel blocks in ONNX order", "statement": "DepthToSpace (modes DCR and CRD) and SpaceToDepth move every element between channel and block position in the order that ONNX specifies, and CRD DepthToSpace undoes SpaceToDepth as implemented.", "quantifier": "all batch, channel, height, width and block sizes", "why_tests_cant": "the order of channels shows only with several channels and several block positions; the project's test list leaves the multi-channel SpaceToDepth test out", "anchors": ["src/Conversion/ONNXToKrnl/Tensor/DepthToSpace.cpp:ONNXDepthToSpaceOpLowering", "src/Conversion/ONNXToKrnl/Tensor/SpaceToDepth.cpp:ONNXSpaceToDepthOpLowering", "src/Conversion/ONNXToKrnl/ONNXToKrnlCommon.cpp:OnnxToKrnlBuilder::transpose"]}
{"id": "C64", "title": "ArgMax, ArgMin and Hardmax select the best position along an axis", "statement": "ArgMax and ArgMin return, for every line along the axis, the position of the largest or smallest element, the first such position or the last when select_last_index is set; Hardmax returns one at the first maximum and zero elsewhere.", "quantifier": "all shapes, axes (negative included), element values, keepdims and select_last_index settings", "why_tests_cant": "ties, signedness and position of the axis each change the result; a line can be of any length", "anchors": ["src/Conversion/ONNXToKrnl/Tensor/ArgMinMax.cpp:ONNXArgMinMaxOpLowering", "src/Conversion/ONNXToKrnl/Math/Hardmax.cpp:ONNXHardmaxOpLowering"]}
{"id": "C65", "title": "CumSum computes running sums along an axis", "statement": "Element k along the axis of the result of CumSum is the sum of the elements up to k (from k when reverse), k itself left out when exclusive.", "quantifier": "all shapes, axes, values, exclusive and reverse settings, compile-time or run-time dimensions", "why_tests_cant": "the lowering doubles a window log2(n) times; a wrong number of steps shows only for some lengths", "anchors": ["src/Conversion/ONNXToKrnl/Math/CumSum.cpp:ONNXCumSumOpLowering"]}
{"id": "C66", "title": "NonZero returns the coordinates of the nonzero elements", "statement": "Column i of the result of NonZero is the coordinate tuple of the i-th nonzero element in row-major order.", "quantifier": "all ranks, shapes and values", "why_tests_cant": "the lowering rebuilds coordinates from per-dimension counts, which agrees with the specification on many inputs and not on all", "anchors": ["src/Conversion/ONNXToKrnl/Tensor/NonZero.cpp:ONNXNonZeroOpLowering"]}
{"id": "C67", "title": "Compress keeps what its condition selects", "statement": "Compress returns, in order, the elements (or the slices along the axis) whose condition is true; those after the last condition are dropped; no condition is read out of bounds.", "quantifier": "all shapes, axes, conditions (shorter than the data included), compile-time or run-time sizes", "why_tests_cant": "the bounds test on the conditions is emitted or skipped depending on which sizes are known", "anchors": ["src/Conversion/ONNXToKrnl/Tensor/Compress.cpp:ONNXCompressOpLowering"]}
{"id": "C68", "title": "Trilu, Range, Flatten and Size", "statement": "Trilu keeps the triangle its attributes select and zeroes the rest; Range lists start, start+delta, ... before limit; Flatten is the matrix of row-major positions of the two dimension groups; Size is the number of elements.", "quantifier": "all shapes, axes, diagonals, starts, limits, steps of either sign", "why_tests_cant": "every diagonal, step sign and dimension grouping is a separate case", "anchors": ["src/Conversion/ONNXToKrnl/Math/Trilu.cpp:ONNXTriluOpLowering", "src/Conversion/ONNXToKrnl/Tensor/Range.cpp:ONNXRangeOpLowering", "src/Conversion/ONNXToKrnl/Tensor/Flatten.cpp:ONNXFlattenOpLowering", "src/Conversion/ONNXToKrnl/Tensor/Size.cpp:ONNXSizeOpLowering"]}
{"id": "C69", "title": "Conv is the sum over channels and kernel", "statement": "Every element of the result of Conv is the bias of its channel plus the sum, over the input channels of its group and over all kernel positions, of the zero-padded image element times the filter element; nothing is read or written out of bounds.", "quantifier": "all numbers of spatial dimensions, sizes, groups, strides, positive dilations, paddings of either sign, with or without bias", "why_tests_cant": "the loop bounds replace the padding by ceilings of quotients that depend on position, stride, dilation and padding together", "anchors": ["src/Conversion/ONNXToKrnl/NN/Conv.cpp:convUnoptimized"]}
{"id": "C70", "title": "Output sizes and automatic padding of convolutions and pooling", "statement": "A position belongs to the output exactly when its window fits in the padded input (in ceil mode: when the window before it ends before the end of the padded input). SAME padding gives ceil(I/s) positions with the least total padding split evenly, and replacing it by explicit padding does not change the output.", "quantifier": "all sizes, kernels, strides, dilations, paddings, padding modes", "why_tests_cant": "two implementations of the padding rule, in the shape inference and in the canonicalization, must agree on all sizes", "anchors": ["src/Dialect/ONNX/ONNXOps/NN/NNHelper.cpp.inc:computeShape", "src/Dialect/ONNX/ONNXOps/NN/Conv.cpp:processConvPadParam"]}
{"id": "C71", "title": "MaxPool and AveragePool reduce their windows", "statement": "MaxPool returns the maximum of the input positions of the window that are inside of the input; AveragePool their sum divided by their number, or by the number of positions inside of the padded input with count_include_pad; nothing is read out of bounds.", "quantifier": "all numbers of spatial dimensions, sizes, kernels, strides, dilations, paddings, rounding modes", "why_tests_cant": "the loop bounds are minima of four quotients, right on most parameters and wrong on some dilated ones", "anchors": ["src/Conversion/ONNXToKrnl/NN/Pooling.cpp:ONNXPoolOpLowering", "src/Dialect/ONNX/ONNXOps/OpHelper.cpp:getIndexExprsForConvWindow"]}
{"id": "C72", "title": "Loop runs its body the right number of times on the right values", "statement": "Loop returns the values, and the rows of the scan outputs, that iterating the body gives while the condition holds and the trip count is not reached; replacing the break condition of a counter by a trip count does not change this.", "quantifier": "all bodies, numbers of loop-carried values and scan outputs, trip counts, conditions and initial values", "why_tests_cant": "bodies are arbitrary programs; the aliasing of loop buffers only shows for particular ways in which a body returns its arguments, and zero-iteration loops are rare in tests", "anchors": ["src/Conversion/ONNXToKrnl/ControlFlow/Loop.cpp:ONNXLoopOpLowering", "src/Dialect/ONNX/ONNXOps/Canonicalize.cpp:LoopOpRewriteMaxTripCountPattern"]}
{"id": "C73", "title": "Scan folds its body over the slices of its inputs", "statement": "Scan returns the final states and the rows of the scan outputs that applying the body to the slices one after the other gives.", "quantifier": "all bodies, numbers of states, inputs and outputs, lengths", "why_tests_cant": "bodies are arbitrary programs and the order of the copies matters only for some of them", "anchors": ["src/Conversion/ONNXToKrnl/ControlFlow/Scan.cpp:ONNXScanOpLowering"]}
{"id": "C74", "title": "Sequence operations", "statement": "SequenceInsert, SequenceErase, SequenceAt and SequenceLength do to a sequence what the same operations do to a list, for positions from the start and from the end.", "quantifier": "all sequences and positions", "why_tests_cant": "positions and lengths are unbounded; unwritten slots may look right by chance", "anchors": ["src/Conversion/ONNXToKrnl/Sequence/SequenceInsert.cpp", "src/Conversion/ONNXToKrnl/Sequence/SequenceErase.cpp", "src/Conversion/ONNXToKrnl/Sequence/SequenceAt.cpp", "src/Conversion/ONNXToKrnl/Sequence/SequenceLength.cpp"]}
{"id": "C75", "title": "NonMaxSuppression selects boxes greedily", "statement": "For every batch and class, NonMaxSuppression returns the boxes found by taking the best remaining box with a score above the threshold, dropping the boxes whose intersection over union with it is above the overlap threshold, and going on until the limit is reached; no row is written outside of the allocated result.", "quantifier": "all numbers of batches, classes and boxes, all boxes in both formats and any corner order, scores, thresholds and limits", "why_tests_cant": "the result depends on the whole history of selections; the allocation depends on a maximum over classes", "anchors": ["src/Conversion/ONNXToKrnl/ObjectDetection/NonMaxSuppression.cpp:ONNXNonMaxSuppressionOpLowering", "src/Conversion/ONNXToKrnl/ObjectDetection/NonMaxSuppression.cpp:emitIOU", "src/Conversion/ONNXToKrnl/ObjectDetection/NonMaxSuppression.cpp:suppressByScores"]}
{"id": "C76", "title": "Softmax is a stable probability distribution along its axis", "statement": "For every shape (also with zero-sized dimensions), every axis in range, positive or negative, and every input of real numbers or minus infinity with at least one real number in each group, Softmax stores exp(x)/sum of exp over the group in every element: the group is the line along the axis from opset 13 on and everything from the axis on up to opset 11. The generated code stays in bounds, never divides by zero, and takes exponentials of non-positive numbers only, so large inputs do not overflow. Every result is non-negative and every line sums to one.", "quantifier": "all shapes, ranks, axes and input values", "why_tests_cant": "Tests use a few small inputs; overflow, masking and the grouping of dimensions must be right for all values and ranks.", "anchors": ["src/Conversion/ONNXToKrnl/Math/Softmax.cpp:emitInnerLoops", "src/Conversion/ONNXToKrnl/Math/Softmax.cpp:emitInstForSoftmax", "src/Conversion/ONNXToKrnl/Math/Softmax.cpp:ONNXSoftmaxLowering"]}
{"id": "C77", "title": "Normalization operators centre and scale each element by the statistics of its own group", "statement": "For every rank and size, BatchNormalization in inference mode returns (x - mean[c]) / sqrt(var[c] + epsilon) * scale[c] + bias[c] with c the channel of the element; InstanceNormalization does so with the mean and population variance of the element's own batch and channel; LRN divides each element by (bias + alpha/size * sum of squares over the window of channels clipped to the tensor)^beta; MeanVarianceNormalization returns elements with the mean subtracted and divided by the standard deviation of the slice selected by the axes; LpNormalization divides by the 1- or 2-norm of the line and gives 0 for zero lines. All accesses are in bounds, no division by zero and no root of a negative number occurs.", "quantifier": "all shapes, ranks, axes, attribute values and input values", "why_tests_cant": "The groups depend on rank, axes and window clipping; tests try a few shapes, and degenerate groups (constant, zero) need separate reasoning.", "anchors": ["src/Conversion/ONNXToKrnl/NN/Normalization.cpp:ONNXBatchNormalizationInferenceModeOpLowering", "src/Conversion/ONNXToKrnl/NN/Normalization.cpp:ONNXInstanceNormalizationOpLowering", "src/Conversion/ONNXToKrnl/Math/LRN.cpp:ONNXLRNOpLowering", "src/Conversion/ONNXToKrnl/Math/MeanVarianceNormalization.cpp:ONNXMeanVarianceNormalizationOpLowering", "src/Conversion/ONNXToKrnl/Math/LpNormalization.cpp:ONNXLpNormalizationOpLowering"]}
{"id": "C78", "title": "LayerNormalization normalizes every row with its own statistics and broadcasts scale and bias", "statement": "For every rank, size and axis, LayerNormalization returns (x - mean) / sqrt(variance + epsilon) * scale + bias for every element, where mean and variance are taken over the dimensions from the axis on and scale and bias are broadcast by the ONNX rules; RMSLayerNormalization returns x / sqrt(mean of squares + epsilon) * scale + bias. The optional outputs hold mean and inverse standard deviation of every row. This holds for every vector length and blocking the compiler may choose, also when the number of rows is not a multiple of the block size or unknown at compile time, with or without bias.", "quantifier": "all shapes, axes, broadcast patterns of scale and bias, vector lengths, block sizes and input values", "why_tests_cant": "The broadcast analysis has seven cases depending on static knowledge about dimensions, and the vectorised blocked loops have remainders; tests cover a handful of combinations.", "anchors": ["src/Conversion/ONNXToKrnl/NN/Normalization.cpp:isBroadcastCompatible", "src/Conversion/ONNXToKrnl/NN/Normalization.cpp:generateIterWithSIMD", "src/Conversion/ONNXToKrnl/NN/Normalization.cpp:generateSIMDCode", "src/Dialect/ONNX/ONNXOps/NN/Normalization.cpp:ONNXLNOpShapeHelper"]}
{"id": "C79", "title": "RNN, LSTM and GRU return the states of the ONNX equations for every sequence and direction", "statement": "For every sequence length, batch, input and hidden size, direction, and presence of biases, peepholes and initial states, RNN, LSTM and GRU return in Y the hidden state of every time step and in Y_h and Y_c the last states, as defined by the equations of the ONNX documentation with the gates stored in the documented order; the reverse pass reads the sequence from its end and both passes of a bidirectional operation use their own weights, initial states and activation functions. With sequence_lens every sequence behaves as if it was alone with its own length. layout = 1 gives the same results with the batch dimension first.", "quantifier": "all sequence lengths, batch, input and hidden sizes, directions, weights, lengths of the sequences and input values", "why_tests_cant": "The state is a recurrence over an unbounded number of steps with in-place updates of the state buffers; an error at a gate offset, in the reverse index or in the padding shows only for particular sizes, directions and lengths.", "anchors": ["src/Conversion/ONNXToKrnl/RNN/RNNBase.hpp:ONNXRNNOpLowering", "src/Conversion/ONNXToKrnl/RNN/RNNBase.cpp:handleSequenceLens", "src/Conversion/ONNXToKrnl/RNN/RNN.cpp:calculateState", "src/Conversion/ONNXToKrnl/RNN/LSTM.cpp:calculateState", "src/Conversion/ONNXToKrnl/RNN/GRU.cpp:calculateState", "src/Dialect/ONNX/ONNXOps/Canonicalize.cpp:RNNOpRewriteLayoutPattern", "src/Dialect/ONNX/ONNXOps/Canonicalize.cpp:RNNOpRewriteSeqLenPattern"]}
{"id": "C80", "title": "Sorting a graph gives a topological order whenever there is one", "statement": "When a model may be sorted, its nodes are imported in an order that contains every node exactly once and in which every value is computed before it is used; the import fails only if no such order exists. The order is the smallest one with regard to the given order of the nodes, so that a graph which is sorted already keeps its order.", "quantifier": "all graphs: any number of nodes, names, repeated and omitted inputs, initializers, also graphs with cycles and with undefined names", "why_tests_cant": "Kahn's algorithm with counts and a multiset, followed by a rearrangement by swaps: correctness depends on invariants over the whole run for every graph.", "anchors": ["src/Builder/ImportONNXUtils.cpp:IsTopologicallySorted", "src/Builder/ImportONNXUtils.cpp:SortGraph", "src/Builder/FrontendDialectTransformer.cpp:ImportFrontendModelInternal"]}
{"id": "C81", "title": "The imported program computes what the ONNX graph computes", "statement": "For every valid ONNX graph, with initializers, subgraphs at any depth that use values of enclosing graphs, omitted optional inputs and outputs and calls of model functions, import succeeds and the imported program returns for all inputs what the graph returns, whatever the single operations mean.", "quantifier": "all graphs of any size and nesting, all functions, all meanings of the operations, all inputs", "why_tests_cant": "Names are resolved through nested scopes and trailing arguments are padded; whether the right value is found must hold for every graph and nesting.", "anchors": ["src/Builder/FrontendDialectTransformer.cpp:importGraph", "src/Builder/FrontendDialectTransformer.cpp:buildOutputAndOperation", "src/Builder/FrontendDialectTransformer.cpp:getNodeInputs", "src/Builder/FrontendDialectTransformer.cpp:ImportFunctionCallNode", "src/Builder/SymbolTable.hpp:SymbolMapping"]}
{"id": "C82", "title": "Every operation is imported with the version its opset asks for", "statement": "For every operation and every opset a model may declare, the operation is imported as the oldest version known to the compiler that is not older than the version the operation has in that opset (the newest known version if all are older); there is an import handler for every version that can be chosen, and every handler can be reached.", "quantifier": "all operations of the table, all opsets", "why_tests_cant": "The table has more than two hundred operations; tests use few opsets.", "anchors": ["src/Builder/FrontendDialectTransformer.cpp:GetImportVersionOfNode", "src/Builder/OpBuildTable.inc"]}
{"id": "C83", "title": "Options for input shapes and dimension names are applied to the right inputs", "statement": "For every value of --shapeInformation, IMPORTER_FORCE_DYNAMIC and --dimParams written as documented, each input gets exactly the dimensions the option gives for it (an entry for the input before one for all inputs; dimensions that are not given stay as in the model), exactly the named dimensions become dynamic, and the names of dimensions that the compiler uses to equate dimensions are those given for that input and dimension, or those of the model.", "quantifier": "all option values of the documented syntax (any number of entries, ranges, numbers), all inputs, ranks and names", "why_tests_cant": "Tests try a few option strings; precedence, ranges and separators interact for arbitrary lists of entries.", "anchors": ["src/Support/TypeUtilities.cpp:parseShapeInformation", "src/Builder/ModelInputShaper.cpp:reshape", "src/Builder/FrontendDialectTransformer.cpp:getInputDimParamsMapFromOption", "src/Builder/FrontendDialectTransformer.cpp:ImportTensorType", "src/Builder/FrontendDialectTransformer.cpp:moveFuncAttrsToArgAttrs", "src/Dialect/ONNX/ONNXDimAnalysis.cpp:getONNXDimParams"]}
{"id": "C84", "title": "A compiled model refuses exactly the inputs that do not fit its signature", "statement": "With verification of inputs on, a call of a compiled model with any list of tensors never reads past the list or past the shape of a tensor, and goes on to compute exactly if the number of tensors, their element types, ranks and static dimensions are those of the signature, no size is negative, and the bounds given by --shapeInformationUB and --shapeInformationLB hold.", "quantifier": "all signatures, all bounds of the documented syntax, all lists of tensors", "why_tests_cant": "The order of the generated checks is what makes them safe; tests cannot show that for every malformed input.", "anchors": ["src/Conversion/KrnlToLLVM/KrnlEntryPoint.cpp:emitVerificationCodeForInputTensors", "src/Conversion/KrnlToLLVM/KrnlEntryPoint.cpp:emitVerificationCodeForDimensionBoundOfInputTensors", "src/Conversion/KrnlToLLVM/KrnlToLLVMHelper.cpp:equalOrFailed"]}
{"id": "C85", "title": "Dimensions that the compiler treats as equal are equal at run time", "statement": "If the analysis of dynamic dimensions says that two dimensions are the same, that two tensors have the same shape (or the same one but for a last dimension of 1), or that two dimensions differ by an offset, then this is so in every execution of the function that does what ONNX says; and the analysis does not read past a list.", "quantifier": "all functions, all orders of traversal of the hash maps, all executions (sizes and shape values of any magnitude)", "why_tests_cant": "The answers are used to leave out broadcasting code and to remove dimension reads; a wrong equality shows only for particular run-time sizes of particular graphs.", "anchors": ["src/Dialect/ONNX/ONNXDimAnalysis.cpp:DimAnalysis::analyze", "src/Dialect/ONNX/ONNXDimAnalysis.cpp:visitDim", "src/Dialect/ONNX/ONNXDimAnalysis.cpp:visitDimForOffsets", "src/Dialect/ONNX/ONNXDimAnalysis.cpp:propagateOffsetRelations", "src/Dialect/ONNX/ONNXDimAnalysis.cpp:sameDim", "src/Dialect/ONNX/ONNXDimAnalysis.cpp:getDimOffset"]}
{"id": "C86", "title": "The analysis of dynamic dimensions ends", "statement": "For every function the analysis of dynamic dimensions ends, so that compilation does not hang in it.", "quantifier": "all functions, all orders of traversal of the hash maps", "why_tests_cant": "Both loops run until nothing changes; whether they stop depends on the function.", "anchors": ["src/Dialect/ONNX/ONNXDimAnalysis.cpp:DimAnalysis::analyze", "src/Dialect/ONNX/ONNXDimAnalysis.cpp:updateDimSets", "src/Dialect/ONNX/ONNXDimAnalysis.cpp:mergeDimSets", "src/Dialect/ONNX/ONNXDimAnalysis.cpp:propagateOffsetRelations"]}
{"id": "C87", "title": "Graph rewrites that rearrange data keep the results of a model", "statement": "When the compiler replaces operations that only move data (transposes, squeezes, reshapes, concatenations and the like, also around element-wise operations) by others, every value of the graph that had a result in ONNX has the same shape and elements after the replacement, and the recorded types stay right; whatever the number, place and order of the replacements.", "quantifier": "all graph fragments on which a rewrite applies, all run-time values and shapes, all element arithmetics, all sequences of rewrites", "why_tests_cant": "Each pattern applies to an unbounded family of graphs (ranks, permutations, axes, shapes known only at run time), and patterns interact; the failing cases need negative axes, empty tensors or run-time shape values.", "anchors": ["src/Dialect/ONNX/ONNXOps/Canonicalize.td:FuseTransposePattern", "src/Dialect/ONNX/ONNXOps/Canonicalize.td:SwapTransposeConcatPattern", "src/Dialect/ONNX/ONNXOps/Canonicalize.td:RemoveSqueezeUnsqueezePattern", "src/Dialect/ONNX/ONNXOps/Canonicalize.cpp:FuseTwoReshapesPattern", "src/Dialect/ONNX/ONNXOps/Canonicalize.cpp:RewriteReshapeAllowZeroPattern", "src/Dialect/ONNX/ONNXOps/Canonicalize.cpp:HandleNegativePermutePatternInTranspose"]}
{"id": "C88", "title": "Graph rewrites of Concat, Slice, Split, Tile, Cast, Dim, Shape, Where and Expand keep the results of a model", "statement": "When the compiler removes, moves or evaluates operations that assemble, select or describe data (Concat, Slice, Split, Tile, Identity, Cast, Dim, Shape, Size, Where, Expand), every value of the graph that had a result in ONNX has the same shape and elements afterwards, the recorded types stay right, and the compiler does not crash; alone or mixed with the rearranging rewrites.", "quantifier": "all graph fragments on which a rewrite applies, all run-time values and shapes, all element arithmetics, all sequences of rewrites", "why_tests_cant": "The number of operands, ranks, axes and shape values known only at run time are unbounded; the failing cases need several empty operands, negative axes or shape values computed at run time.", "anchors": ["src/Dialect/ONNX/ONNXOps/Canonicalize.cpp:RecomposeConcatPattern", "src/Dialect/ONNX/ONNXOps/Canonicalize.cpp:RemoveDimZeroInputInConcatPattern", "src/Dialect/ONNX/ONNXOps/Canonicalize.cpp:SliceConcatNoOpPattern", "src/Dialect/ONNX/ONNXOps/Canonicalize.cpp:DimOpFromReshapeInputPattern", "src/Dialect/ONNX/ONNXOps/Canonicalize.cpp:RemoveWhereEqualPattern", "src/Dialect/ONNX/ONNXOps/Canonicalize.cpp:ReplaceUnsqueezeOfExpandRewritePattern", "src/Dialect/ONNX/ONNXOps/Canonicalize.cpp:ReplaceSliceOfExpandRewritePattern"]}
{"id": "C89", "title": "Graph rewrites that recombine arithmetic keep the results of a model, up to rounding", "statement": "When the compiler fuses, splits or reorders arithmetic (MatMul and Add into Gemm, constants into the bias or the weights of a Conv, BatchNormalization into Mul and Add or into a Conv, scalars into a MatMul, consecutive Clips, comparison of converted values, Pow into Mul, Relu and MaxPool, MatMul of a Reshape, a sum into the bias of LayerNormalization, InstanceNormalization and GroupNormalization into LayerNormalization), every value of the graph that had a result in ONNX has the same shape and, in exact arithmetic, the same elements afterwards, the recorded types stay right, and the compiler does not crash; alone or mixed with the other rewrites.", "quantifier": "all graph fragments on which a rewrite applies, all run-time values and shapes, all element arithmetics with the stated laws, all sequences of rewrites", "why_tests_cant": "Shapes, ranks, broadcasting and attribute values are unbounded; the failing cases need operands that stretch the product, disjoint clipping ranges, exponents with more axes, or extents known only at run time.", "anchors": ["src/Dialect/ONNX/ONNXOps/Canonicalize.td:MulAddToGemmOptPattern", "src/Dialect/ONNX/ONNXOps/Canonicalize.td:FuseAddConvNullBiasPattern", "src/Dialect/ONNX/ONNXOps/Canonicalize.td:FuseBatchNormInferenceModeConvPattern", "src/Dialect/ONNX/ONNXOps/Canonicalize.td:FuseConsecutiveClipsPattern", "src/Dialect/ONNX/ONNXOps/Canonicalize.cpp:PowToMulRewritePattern", "src/Dialect/ONNX/ONNXOps/Canonicalize.cpp:PropagateBiasIntoLayerNormRewritePattern", "src/Dialect/ONNX/ONNXOps/Canonicalize.cpp:ONNXGroupNormalizationCommon"]}
{"id": "C90", "title": "Deriving a trip count from the condition of a Loop keeps its results", "statement": "When the compiler replaces the condition of a Loop that counts up to a bound by a smaller maximum trip count, the rewritten Loop runs the same iterations: the same final values and the same scanned outputs, whatever else the body computes and whatever the initial condition; and the compiler does not crash on any Loop.", "quantifier": "all loops, all bounds, steps and start values known at compile time or only at run time, all widths of the counter, all bodies, all roundings to 24 and 53 bits", "why_tests_cant": "Bounds known only at run time range over all integers; the failing cases are a start at the bound, a falling counter, a range beyond the precision of float, a shared constant, arguments of enclosing blocks with a matching number.", "anchors": ["src/Dialect/ONNX/ONNXOps/Canonicalize.cpp:LoopOpRewriteMaxTripCountPattern"]}
{"id": "C91", "title": "Rewrites of RNN, GRU and LSTM keep their results", "statement": "When the compiler replaces batch-first layout by the other layout and transposes, and when it gives up the input sequence_lens, every user of a result of the operator sees the same tensor as before, whatever the equations of a step, the number of directions, the lengths of the sequences and the initial states.", "quantifier": "all recurrent operators (any step function, any directions), all shapes, all sequence lengths and initial states", "why_tests_cant": "Sequence lengths are run-time values and the test of the batch size depends on which shapes are recorded and on the layout; tests use full sequences.", "anchors": ["src/Dialect/ONNX/ONNXOps/Canonicalize.cpp:RNNOpRewriteLayoutPattern", "src/Dialect/ONNX/ONNXOps/Canonicalize.cpp:RNNOpRewriteSeqLenPattern"]}
{"id": "C92", "title": "ConvTranspose is computed by what replaces it", "statement": "A model with ConvTranspose gives the result that ONNX defines: every element of the input, times the kernel, is added where strides, dilations, paddings, output_padding, output_shape, auto_pad and groups say, and the announced shape is that of the result; no store leaves the buffers.", "quantifier": "all numbers of spatial axes, extents, groups, strides, dilations, paddings, auto_pad modes and tensors", "why_tests_cant": "The replacement (upsampling, reversed and regrouped weights, Conv) has to be right for every combination of six attributes; tests take a few combinations and no cropping beyond the kernel.", "anchors": ["src/Dialect/ONNX/Transforms/Decompose.cpp:DecomposeConvTransposePattern", "src/Conversion/ONNXToKrnl/Additional/UpsampleAndPad.cpp", "src/Dialect/ONNX/ONNXOps/NN/Conv.cpp:ONNXConvTransposeOpShapeHelper"]}
{"id": "C93", "title": "Conv computed as a matrix product", "statement": "When the compiler replaces Conv by matrix products, with or without the rearrangement of windows into columns, the result is that of Conv, element for element, and the rearrangement reads and writes only inside of its buffers, whatever they held before.", "quantifier": "all shapes, kernels, strides, dilations, paddings, auto_pad modes, batch sizes, optimization levels and whatever is known of the shapes at compile time", "why_tests_cant": "The replacement chooses between a matrix and a stack of matrices by what is statically known, and computes output extents at run time with its own formula; tests take a few combinations.", "anchors": ["src/Dialect/ONNX/Transforms/Decompose.cpp:ConvToIm2ColPattern", "src/Dialect/ONNX/Transforms/Decompose.cpp:Conv1x1ToMatmulPattern", "src/Conversion/ONNXToKrnl/Additional/Im2Col.cpp", "src/Dialect/ONNX/ONNXOps/Additional/Im2Col.cpp", "src/Dialect/ONNX/DialectBuilder.cpp:reshapeToNDim"]}
{"id": "C94", "title": "The decomposition of Einsum", "statement": "The operators that an Einsum is decomposed into compute the sum of products that its equation describes: with any number of operands, subscripts repeated in an operand (diagonals), axes of extent 1 that are stretched, and empty tensors. They are defined on their operands and have the recorded result types.", "quantifier": "all numbers of operands, subscripts, static shapes, contents, commutative rings of elements, and orders of the hash tables of the compiler", "why_tests_cant": "The decomposition chooses between diagonals, sums, element-wise products and matrix products by which subscripts occur where; there are exponentially many combinations.", "anchors": ["src/Dialect/ONNX/Transforms/DecomposeEinsum.cpp"]}
{"id": "C95", "title": "The equations of Einsum", "statement": "The text of an Einsum equation is accepted exactly if it is well-formed, spaces aside, and its operands exactly if their ranks and known extents fit it; every axis then has the subscript the text gives it, an ellipsis stands for the same axes in all operands, a result that is left out consists of the ellipsis and the letters that occur once in order, and what is inferred of the result's shape is true. Accepted Einsums of static shape are decomposed into operators that compute what the text describes.", "quantifier": "all texts, numbers of operands, ranks, ellipses, and whatever is known of the shapes", "why_tests_cant": "The text is taken apart by string functions that rely on what a regular expression has accepted; the texts and ranks are unbounded.", "anchors": ["src/Dialect/ONNX/ONNXOps/Math/EinsumHelper.cpp", "src/Dialect/ONNX/ONNXOps/Math/Einsum.cpp", "src/Dialect/ONNX/Transforms/DecomposeEinsum.cpp"]}
{"id": "C96", "title": "Composite operators are taken apart", "statement": "ReduceL1, ReduceL2, ReduceLogSum, ReduceLogSumExp, ReduceSumSquare, LogSoftmax, Scaler, HardSwish, CastLike, ConstantOfShape, Sum and the old versions of Reduce operators, Squeeze, Unsqueeze and Clip are replaced by graphs of simpler operators that compute the same and have the same element type, wherever and in whatever order the rewrites are applied; the rewriting ends, and none of these operators is left.", "quantifier": "all graphs of these operators, shapes, axes, attributes, element types, values, and orders of rewriting", "why_tests_cant": "The rewrites enable each other, and their correctness depends on shapes, ranks, element types and the presence of axes.", "anchors": ["src/Dialect/ONNX/Transforms/Decompose.td", "src/Dialect/ONNX/Transforms/Decompose.cpp", "src/Transform/ONNX/ONNXHybridTransformPass.cpp"]}
{"id": "C97", "title": "Convolutions of the same input are combined", "statement": "Where several Convs with the same attributes use the same input and none depends on another, they are replaced by one Conv with concatenated weights, followed by Split, or in place of a Concat of their results; the function computes the same, and operands still come before their users.", "quantifier": "all functions, numbers of convolutions, attributes, shapes, values, orders of MLIR's lists of users, and element arithmetics", "why_tests_cant": "It depends on how the convolutions depend on each other through the rest of the function, on the order of the lists of users, and on who else uses the values.", "anchors": ["src/Dialect/ONNX/Transforms/Recompose.cpp"]}
{"id": "C98", "title": "Normalisations and Gelu are recognised correctly", "statement": "Where a product written with elementary operators is replaced by LayerNormalization, RMSLayerNormalization or Gelu, the result is the same as without the replacement (for Gelu, up to the rounding of its constants), for every form of the expression that is recognised; the usual forms are recognised; and the match never aborts the compiler.", "quantifier": "all expressions, orders of operands, shapes, ranks, axes, constants and values; all true information about equal values, uses and shapes", "why_tests_cant": "There are many combinations of operand orders, forms of the quotient, axes and constants, and the result must agree for every input.", "anchors": ["src/Dialect/ONNX/Transforms/Recompose.cpp:RecomposeLayerNormFromMulPattern", "src/Dialect/ONNX/Transforms/Recompose.cpp:RecomposeGeluFromMulPattern", "src/Dialect/ONNX/ONNXOps/OpHelper.cpp", "src/Dialect/ONNX/ONNXOps/OpHelper.hpp.inc"]}
{"id": "C99", "title": "Arithmetic with constants is rearranged without changing its value", "statement": "Moving constants to the right of sums and products, gathering them, folding them, turning a subtraction of a constant into an addition and dropping neutral constants never changes the value of a graph; the rearrangement ends whatever the order; and it leaves at most one constant in each sum and product when nothing restrains it.", "quantifier": "all expressions, shapes with broadcasting, element values, types and use counts, and all sequences of applications of the patterns", "why_tests_cant": "The patterns apply in any order and anywhere in a graph of any size; neither that they agree for every shape nor that they cannot loop follows from examples.", "anchors": ["src/Dialect/ONNX/Transforms/ConstProp.td:AddConstAssociative1", "src/Dialect/ONNX/Transforms/ConstProp.td:MulConstAssociative4", "src/Dialect/ONNX/Transforms/ConstProp.td:SubConstToNeg", "src/Dialect/ONNX/Transforms/ConstProp.td:AddZerosOnRhs", "src/Dialect/ONNX/Transforms/ConstProp.td:MatMulZerosOnLhs"]}
{"id": "C100", "title": "Integer constants are folded to what the generated code computes", "statement": "Element by element, folding an expression of integer and boolean constants gives the number that the generated code would compute at the width of the type, for arithmetic, comparisons, bit operations, casts, Where and Clip.", "quantifier": "all integer types up to 64 bits, all operands and all nested expressions", "why_tests_cant": "Intermediate results are kept as 64-bit numbers and cut only at the end, so agreement depends on every combination of operators, widths and values.", "anchors": ["src/Dialect/ONNX/Transforms/ConstProp.cpp:ElementWiseBinaryOpImpl", "src/Dialect/ONNX/Transforms/ConstProp.cpp:ElementWiseUnaryOpImpl", "src/Dialect/ONNX/Transforms/ConstProp.cpp:createMaximumValueForClip", "src/Dialect/ONNX/ElementsAttr/ElementsAttrBuilder.cpp:castToIntElementType", "src/Dialect/ONNX/ElementsAttr/ElementsAttrBuilder.cpp:combine", "src/Dialect/ONNX/ElementsAttr/WideNum.hpp:WideNum"]}
{"id": "C101", "title": "Quantised operators compute their definitions and lose at most half a step", "statement": "QuantizeLinear rounds half to even, adds the zero point and saturates; DynamicQuantizeLinear picks the smallest range with zero and all elements, so that dequantising gives each element back up to half a step; MatMulInteger and QLinearMatMul sum products of differences to zero points, and a QLinearMatMul made from DequantizeLinear, MatMul and QuantizeLinear gives the same numbers.", "quantifier": "all elements, scales, zero points (one, or one per row or column), signed and unsigned operands, and sizes of matrices", "why_tests_cant": "Rounding ties, saturation, sign conventions and the broadcasting of parameters interact for each value and shape; tests sample a few.", "anchors": ["src/Conversion/ONNXToKrnl/Quantization/QuantizeLinear.cpp:emitQuantizationLinearScalarParameters", "src/Conversion/ONNXToKrnl/Quantization/DynamicQuantizeLinear.cpp:emitDynamicQuantizationLinearScalarParametersFromMinMax", "src/Conversion/ONNXToKrnl/Math/MatMulInteger.cpp:ONNXMatMulIntegerOpLowering", "src/Conversion/ONNXToKrnl/Math/QLinearMatMul.cpp:ONNXQLinearMatMulOpLowering", "src/Dialect/Mlir/DialectBuilder.cpp:roundEvenEmulation", "src/Dialect/ONNX/DialectBuilder.cpp:getOrCastToI8", "src/Dialect/ONNX/Transforms/Recompose.cpp:matchQLinearMatMulPattern"]}
{"id": "C102", "title": "GridSample interpolates where the grid says and reads only the image", "statement": "Every element of GridSample is the interpolation of the image at the place given by the grid, with the padding asked for outside, and computing it reads no memory outside of the image.", "quantifier": "all images, grids (also with coordinates outside of [-1, 1]), sizes, modes and paddings", "why_tests_cant": "Places on and beyond the border meet rounding, clamping and masks in many combinations, and a read outside of the image usually goes unnoticed.", "anchors": ["src/Conversion/ONNXToKrnl/NN/GridSample.cpp:loadWithPadding", "src/Conversion/ONNXToKrnl/NN/GridSample.cpp:computeBilinearSamplingPlan", "src/Conversion/ONNXToKrnl/NN/GridSample.cpp:lowerGridSample2D", "src/Conversion/ONNXToKrnl/NN/GridSample.cpp:lowerGridSample3D", "src/Dialect/ONNX/ONNXOps/Tensor/GridSample.cpp:verify"]}
{"id": "C103", "title": "Operations split into tiles by the NNPA runtime give the whole result", "statement": "An elementwise operation, softmax or matrix product that the NNPA runtime cuts into tiles, sequentially or for several threads, gives every element of its result the value the operation has on whole tensors, writes nothing else, never hands the accelerator more than it takes, and reports a failure of the accelerator.", "quantifier": "all shapes and layouts, all limits of the accelerator, all numbers of threads, all orders in which the tiles are done, all earlier contents of the buffers", "why_tests_cant": "The tensors that are cut are huge, and whether a cut loses or repeats a stick depends on how the shape, the limits and the number of threads meet.", "anchors": ["src/Accelerators/NNPA/Runtime/zdnnx/zdnnx.c:zdnnx_prepare_split_info", "src/Accelerators/NNPA/Runtime/zdnnx/zdnnx.c:zdnnx_set_tile", "src/Accelerators/NNPA/Runtime/zdnnx/zdnnx.c:zdnnx_copy_data_to_full", "src/Accelerators/NNPA/Runtime/zdnnx/seq_ops.c:select_tile_sizes", "src/Accelerators/NNPA/Runtime/zdnnx/seq_ops.c:zdnnx_seq_unary_elementwise", "src/Accelerators/NNPA/Runtime/zdnnx/seq_ops.c:zdnnx_seq_binary_elementwise", "src/Accelerators/NNPA/Runtime/zdnnx/seq_ops.c:zdnnx_seq_softmax", "src/Accelerators/NNPA/Runtime/zdnnx/seq_ops.c:zdnnx_seq_matmul", "src/Accelerators/NNPA/Runtime/zdnnx/omp_ops.c:zdnnx_omp_unary_elementwise", "src/Accelerators/NNPA/Runtime/zdnnx/omp_ops.c:zdnnx_omp_binary_elementwise", "src/Accelerators/NNPA/Runtime/zdnnx/omp_ops.c:zdnnx_omp_softmax", "src/Accelerators/NNPA/Runtime/zdnnx/omp_ops.c:zdnnx_omp_matmul"]}
{"id": "C104", "title": "Removing buffers that are only written changes no result", "statement": "When the compiler removes buffers that nothing reads, together with the stores into them, the values computed for those stores and the loops left empty, the function still returns the same values, leaves the same contents in the buffers of the caller and in returned buffers, and has the same other effects; every buffer that can be removed this way is removed; and the removal itself never touches an operation it has already erased.", "quantifier": "all functions with nested loops, all operations that do what they declare, all inputs, all orders of the lists of uses", "why_tests_cant": "Whether a removal is harmless depends on every later use of every buffer, and on the order in which uses happen to be listed.", "anchors": ["src/Transform/EliminateWriteOnlyAlloc.cpp:isWriteOnlyAlloc", "src/Transform/EliminateWriteOnlyAlloc.cpp:hasLiveCoWrite", "src/Transform/EliminateWriteOnlyAlloc.cpp:isDeadAffineFor", "src/Transform/EliminateWriteOnlyAlloc.cpp:runOnOperation"]}
{"id": "C105", "title": "Element-wise operators compute the function of ONNX for every element", "statement": "The code emitted for one element of an element-wise operator computes the function that ONNX defines: on finite numbers, at the infinities (the limit) and on NaN; on integers of every width, including Mod and Div of negative numbers; on strings; and for operators with any number of operands.", "quantifier": "all elements, all attribute values, all widths of integers, all numbers of operands", "why_tests_cant": "Tests try some finite numbers in the middle of the range; the formulas differ at infinities, on NaN, at the ends of the integer types and where an intermediate value overflows.", "anchors": ["src/Conversion/ONNXToKrnl/Math/Elementwise.cpp:emitScalarOpFor", "src/Conversion/ONNXToKrnl/Math/Elementwise.cpp:emitPostProcessingFor", "src/Dialect/Mlir/DialectBuilder.cpp:MathBuilder::roundEvenEmulation", "src/Dialect/Mlir/DialectBuilder.cpp:MathBuilder::max", "src/Dialect/Mlir/DialectBuilder.cpp:MathBuilder::shl"]}
{"id": "C106", "title": "Cast converts every value as ONNX says", "statement": "The code emitted to convert an element from one type to another gives a value of the asked type that is: the low bits for integers; the number without its fraction for a float that becomes an integer and fits; the number rounded once for an integer that becomes a float or a float that becomes narrower; whether it is not zero for booleans.", "quantifier": "all pairs of types, all widths of integers, all values, all roundings", "why_tests_cant": "The conversion of a pair of types goes through one of a dozen paths, some in two steps; each has its own widths and signs, and tests try some pairs with some values.", "anchors": ["src/Dialect/Mlir/DialectBuilder.cpp:MathBuilder::cast", "src/Dialect/Mlir/DialectBuilder.cpp:MathBuilder::castToSignless", "src/Dialect/Mlir/DialectBuilder.cpp:MathBuilder::castToUnsigned", "src/Dialect/Mlir/DialectBuilder.cpp:MathBuilder::neq", "src/Conversion/ONNXToKrnl/Math/Elementwise.cpp:emitScalarOpFor<ONNXCastOp>"]}
{"id": "C107", "title": "Fusing element-wise operations does not change a model's values", "statement": "When an element-wise operation is lowered to one loop nest together with the element-wise operations that use its result, every value that is still computed is the same tensor as when the operations run one after another, and every value the loop nest reads has been computed before it.", "quantifier": "all blocks of operations, chains of fused operations, shapes known or not, data, and operations on elements", "why_tests_cant": "Which operations are fused depends on uses, operands, shapes and order in the whole block; a wrong decision shows only for some combination of kinds, numbers of operands and extents at run time.", "anchors": ["src/Conversion/ONNXToKrnl/Math/Elementwise.cpp:OpFusionHelper", "src/Conversion/ONNXToKrnl/Math/Elementwise.cpp:areInputsValidForFusion", "src/Conversion/ONNXToKrnl/Math/Elementwise.cpp:findFusibleOps", "src/Conversion/ONNXToKrnl/Math/Elementwise.cpp:emitFuseOps", "src/Conversion/ONNXToKrnl/Math/Elementwise.cpp:replaceOrEraseONNXOps", "src/Conversion/ONNXToKrnl/Math/Elementwise.cpp:emitScalarOpFor<ONNXMaxOp>", "src/Conversion/ONNXToKrnl/Math/Elementwise.cpp:emitPostProcessingFor<ONNXMeanOp>", "src/Dialect/ONNX/ONNXOps/ShapeHelper.cpp:ONNXBroadcastOpShapeHelper::getAccessExprs"]}
{"id": "C108", "title": "Reusing the buffer of an operand for the result changes no other value", "statement": "With reuse of buffers enabled, an element-wise operation that writes its result into the buffer of one of its operands computes the same result as into a new buffer, and changes no argument of the model, no constant and no value that is used later.", "quantifier": "all element-wise operations, operands, shapes, contents of buffers and orders of the iterations", "why_tests_cant": "Whether overwriting is harmless depends on who else can see the buffer: callers, constants on the next run, and views; a test of one run of one model sees the result only.", "anchors": ["src/Conversion/ONNXToKrnl/Math/Elementwise.cpp:isBufferReusable", "src/Conversion/ONNXToKrnl/Math/Elementwise.cpp:whichBufferToReuse", "src/Conversion/ONNXToKrnl/Math/Elementwise.cpp:allocOrReuse", "src/Compiler/CompilerOptions.cpp:enableKrnlBufferReuse"]}
{"id": "C109", "title": "Sessions answer as documented and leave the process as it was", "statement": "A program that loads, queries, runs and destroys models through sessions gets from each call the answer of the model it loaded and the entry point it chose last, or an exception that says what failed. The calls leave the environment, the signal handlers and the mask of signals of the process unchanged, and a destroyed session closes its library.", "quantifier": "all histories of calls on any number of sessions, libraries, paths, tags, inputs, and behaviours of entry points including signals", "why_tests_cant": "The state of a process is shared by all sessions: a failed load or a caught signal changes what a later call on another session does, so the order of calls matters, of which there are infinitely many.", "anchors": ["src/Runtime/ExecutionSession.cpp:ExecutionSession::loadModel", "src/Runtime/ExecutionSession.cpp:ExecutionSession::setEntryPoint", "src/Runtime/ExecutionSession.cpp:ExecutionSession::runImplementation", "src/Runtime/ExecutionSession.cpp:ExecutionSession::runWithSignalHandler", "src/Runtime/ExecutionSession.cpp:ExecutionSession::runWithoutSignalHandler", "src/Runtime/ExecutionSession.cpp:ExecutionSession::~ExecutionSession", "src/Runtime/ExecutionSession.hpp:ExecutionSession"]}
{"id": "C110", "title": "A compiled model describes its inputs and outputs in JSON", "statement": "omInputSignature and omOutputSignature of a compiled model return, for the name of an entry point, a C string with JSON text: an array with one object for each input (output) in order, with its element type, its dimensions (-1 if unknown) and its name. For any other name they return NULL.", "quantifier": "all models, numbers and names of entry points, tags, types and names of inputs and outputs, and all names asked for", "why_tests_cant": "The text is made by concatenation and by search and replace over the whole text, and cut at a marker: whether it is right depends on every character of every name.", "anchors": ["src/Conversion/ONNXToKrnl/ConvertONNXToKrnl.cpp:ONNXEntryPointLowering::concatTypeString", "src/Conversion/ONNXToKrnl/ConvertONNXToKrnl.cpp:ONNXEntryPointLowering::getSignature", "src/Conversion/ONNXToKrnl/ConvertONNXToKrnl.cpp:ONNXEntryPointLowering::typeMap", "src/Conversion/KrnlToLLVM/KrnlEntryPoint.cpp:recordEntryPointSignatures", "src/Conversion/KrnlToLLVM/ConvertKrnlToLLVM.cpp:genSignatureFunction"]}
{"id": "C111", "title": "What OMCompile reports is what the compiler did", "statement": "OMCompile passes to the compiler exactly the flags it was given, and the output file and tag it reports afterwards are those of the library the compiler wrote, so that a session given them finds the library and its entry points.", "quantifier": "all lists of flags, models, working directories and directories for the output", "why_tests_cant": "The driver works out names from the text of the flags and the compiler from its option parser: they must agree on every text.", "anchors": ["src/Compiler/CommandUtils.cpp:parseFlags", "src/Compiler/CommandUtils.cpp:getOutputBasenameFromFlags", "src/Compiler/CommandUtils.cpp:getEmissionTargetFromFlags", "src/Compiler/CommandUtils.cpp:getOutputFilename", "src/Compiler/CommandUtils.cpp:getModelTag", "src/Compiler/CommandUtils.cpp:applyOutputPath", "src/Compiler/OMCompile.cpp:OMCompile::compile", "src/onnx-mlir.cpp:main", "src/Compiler/CompilerUtils.cpp:setupModule"]}
{"id": "C112", "title": "The memory of inputs and outputs is freed exactly once", "statement": "After a run of a model, in C++ or Python, whatever the order in which the user drops the outputs: no memory is freed twice, outputs that are still held are in memory in use, and when everything is dropped no memory of the run is left in use. In Python outputs never share memory with inputs.", "quantifier": "all models (which outputs are new buffers, constants, views, inputs), all inputs, copies forced or not, all orders of dropping outputs, failing runs", "why_tests_cant": "Depends on which outputs share memory and on the order of all later events; a leak or double free shows up only elsewhere.", "anchors": ["src/Conversion/KrnlToLLVM/ConvertKrnlToLLVM.cpp:shouldOwn", "src/Conversion/KrnlToLLVM/ConvertKrnlToLLVM.cpp:determineOwnershipForOutputOMTensors", "src/Runtime/python/PyExecutionSession.cpp:PyExecutionSession::pyRunImplementation", "src/Runtime/ExecutionSession.cpp:ExecutionSession::run", "src/Runtime/OMTensor.inc:omTensorDestroy", "src/Runtime/OMTensorList.inc:omTensorListDestroy"]}
{"id": "C113", "title": "Exposing the dimensions of tensors to shape inference keeps results", "statement": "Compiling a model in which shapes are computed by Shape, Cast, Gather, Slice and Concat and used by Reshape and ConstantOfShape never changes a value of the model and never stops the compiler: computations on shapes are replaced by single dimensions with the same values, and the result types recorded for Reshape and ConstantOfShape are right.", "quantifier": "all fragments of models built from these operations, all recorded types, constants, axes, starts, ends, steps and indices, all argument values, any number of rewrites in any order", "why_tests_cant": "Which pattern applies depends on which extents are recorded; tests see a few shapes and mostly indices that are not negative.", "anchors": ["src/Dialect/ONNX/Transforms/SimplifyShapeRelatedOps.cpp:ShapeToDimConcatPattern", "src/Dialect/ONNX/Transforms/SimplifyShapeRelatedOps.cpp:PassThroughCastPattern", "src/Dialect/ONNX/Transforms/SimplifyShapeRelatedOps.cpp:PassThroughGatherPattern", "src/Dialect/ONNX/Transforms/SimplifyShapeRelatedOps.cpp:PassThroughSlicePattern", "src/Dialect/ONNX/Transforms/SimplifyShapeRelatedOps.cpp:PassThroughConcatPattern", "src/Dialect/ONNX/Transforms/SimplifyShapeRelatedOps.cpp:UpdateReshapePattern", "src/Dialect/ONNX/Transforms/SimplifyShapeRelatedOps.cpp:UpdateConstantOfShapePattern", "src/Dialect/ONNX/ONNXOps/OpHelper.cpp:areDimsFromConcat", "src/Dialect/ONNX/ONNXOps/Tensor/Slice.cpp:ONNXSliceOpShapeHelper::computeShape"]}
{"id": "C114", "title": "Operations have names of their own", "statement": "After the passes that assign names, every ONNX operation that should have a name has a non-empty one, no two operations have the same name, the first operation with a given name keeps it, nothing else of the program changes, and assigning names always ends. Removing common subexpressions keeps the names of the operations that stay. The names depend only on the model.", "quantifier": "all programs, all existing names and locations, all iteration orders of the set of operations without a name", "why_tests_cant": "Clashes depend on names in the model that look like generated ones; the iteration order depends on memory addresses and changes only above 32 unnamed operations.", "anchors": ["src/Dialect/ONNX/Transforms/SetONNXNodeName.cpp:SetONNXNodeNamePass::runOnOperation", "src/Dialect/ONNX/Transforms/SetONNXNodeName.cpp:SetONNXNodeNamePass::generateNodeName", "src/Transform/ONNXCSEWithNodeName.cpp:ONNXCSEWithNodeNamePass", "src/Dialect/ONNX/ONNXOps/OpHelper.cpp:getNodeNameInPresenceOfOpt"]}
{"id": "C115", "title": "Profiles show what ran", "statement": "A program compiled with instrumentation does the same as without. Around every execution of every selected operation there are the calls asked for, and the runtime is initialised once, before all of them. The report has a line for each call, in order, with the names of the operation and the time since the line before and since the start.", "quantifier": "all programs with regions, all selections of operations, all branches taken and numbers of iterations, all lengths of runs, all times and names", "why_tests_cant": "What is lost depends on nesting, repetition, the branch taken, the number of records and the lengths of names.", "anchors": ["src/Transform/InstrumentPass.cpp:InstrumentPass::runOnOperation", "src/Conversion/KrnlToLLVM/KrnlInstrument.cpp:KrnlInstrumentOpLowering", "src/Runtime/OMInstrument.c:OMInstrumentPoint", "src/Runtime/OMInstrument.c:updateRecordBuffer", "src/Runtime/OMInstrument.c:flushRecordBuffer", "include/onnx-mlir/Compiler/OMCompilerRuntimeTypes.h:SET_INSTRUMENT_OP_NAME_LEN"]}
{"id": "C116", "title": "Moving buffers out of parallel loops changes no result", "statement": "When the compiler allocates a temporary buffer once per thread instead of once per iteration of a parallel loop, a program without memory errors gets none, every result it can produce is one that the program could produce before, every thread frees what it allocated, and the buffers that qualify are really moved.", "quantifier": "all loop bodies with conditionals and inner loops, all numbers of threads and iterations, all distributions of iterations to threads, all interleavings", "why_tests_cant": "Results depend on the interleaving of threads and on what an earlier iteration of the same thread left in the buffer.", "anchors": ["src/Transform/BufferOMPLoopHoist.cpp:HandleOneLoop", "src/Transform/BufferOMPLoopHoist.cpp:HandleOneAlloc", "src/Transform/BufferOMPLoopHoist.cpp:directlyNestedIn", "src/Transform/BufferOMPLoopHoist.cpp:areOperandsDefinedOutside", "src/Transform/BufferOMPLoopHoist.cpp:findDealloc"]}
{"id": "C117", "title": "Removing duplicate Dim operations keeps results", "statement": "When operations that read the size of a dimension are found to read the same size, all uses take the first of them and the others are removed: every operation gets the same values as before in every execution, values are computed before they are used, nothing that is used is removed, and of the operations that were found equal only the first is used.", "quantifier": "all graphs, all executions, all orders of sets, of their members, of users and of removal", "why_tests_cant": "The pass iterates over hash sets of pointers; which operation is first and which user is found depends on the order; equality of sizes must hold in every execution.", "anchors": ["src/Dialect/ONNX/Transforms/RemoveSameONNXDim.cpp:RemoveSameONNXDimPass::runOnOperation", "src/Dialect/ONNX/ONNXDimAnalysis.cpp:DimAnalysis::analyze"]}
{"id": "C118", "title": "Window operators return the windows of ONNX", "statement": "HannWindow, HammingWindow and BlackmanWindow return exactly size elements, and element n is the value that ONNX defines, for symmetric and for periodic windows and for sizes of all allowed types.", "quantifier": "all sizes, all elements, both kinds of window", "why_tests_cant": "Tests use one size and a tolerance that hides the error of rounded constants; the values are of a transcendental function of two integers.", "anchors": ["src/Conversion/ONNXToKrnl/Math/Window.cpp:emitWindowCompute", "src/Conversion/ONNXToKrnl/Math/Window.cpp:GenericWindowOpLowering"]}
{"id": "C119", "title": "Options that select operations select the named ones", "statement": "An option that is a list of name patterns enables exactly the names that one of its patterns fits: a star stands for any sequence, a point for itself, patterns are separated by commas or spaces; NONE, ALL and the empty option are special; with regular expressions in the option a name is enabled when one of them matches all of it. The answer for a name does not depend on what was asked before.", "quantifier": "all options, all names, all sequences of questions", "why_tests_cant": "The options are translated to regular expressions by substitutions on the string, and answers are kept; both must be right for every string and every history.", "anchors": ["src/Compiler/OptionUtils.cpp:EnableByRegexOption::setRegexString", "src/Compiler/OptionUtils.cpp:EnableByRegexOption::isEnabled"]}
{"id": "C120", "title": "Random operators", "statement": "RandomUniform, RandomNormal and their Like forms store one value for each element of the output and no more; uniform values are between low and high; normal values are numbers; with a seed the values are the same in every run, whatever ran before; different operations get unrelated values.", "quantifier": "all generators of the C library, all states of it, all shapes, bounds and seeds", "why_tests_cant": "The values are random: a test sees a few of the numbers that the library can return; rounding of the largest ones, logarithms of zero and dependence on earlier runs show up rarely.", "anchors": ["src/Runtime/OMRandomUniform.c:run_uniform_random", "src/Runtime/OMRandomNormal.c:get_random_normal_value_f64", "src/Conversion/ONNXToKrnl/Math/RandomNormalLike.cpp:ONNXRandomNormalLikeOpLowering", "src/Conversion/ONNXToKrnl/Math/RandomUniformLike.cpp:ONNXRandomUniformLikeOpLowering"]}
{"id": "C121", "title": "Concat fused with Shape and Transpose", "statement": "A Concat that is used only by a Shape and a Transpose, and is fused with them, gives the same results: the sizes that Shape returns from its start to its end, and the transposition of the concatenation, with every element of every input in its place and no element undefined.", "quantifier": "all numbers of inputs, ranks, shapes, axes, permutations, starts and ends, all uses of a Concat", "why_tests_cant": "Index arithmetic over any number of inputs and dimensions; the write index combines an offset with a permutation.", "anchors": ["src/Conversion/ONNXToKrnl/Tensor/ConcatShapeTranspose.cpp:ONNXConcatShapeTransposeOpLowering", "src/Dialect/ONNX/ONNXOps/Additional/ConcatShapeTranspose.cpp:computeShape", "src/Dialect/ONNX/Transforms/Decompose.cpp:isConcatFuseMatched"]}
{"id": "C122", "title": "Configuration files", "statement": "The configuration file that is used is the last one named with --config-file, in any of its forms; without one it is omconfig.json in the directory of the model. Its options come before those of the command line, so that the command line wins; a file that is missing, unreadable or not a JSON object gives no options. A configuration object keeps the contents of the first file that it loads, over any history of loads, and what it stores can be loaded again.", "quantifier": "all command lines, file systems, contents of files, options, and histories of loads", "why_tests_cant": "Unbounded command lines with items in any order, and histories of loads over file systems that change.", "anchors": ["src/Compiler/CompilerOptions.cpp:loadCompileOptionsFromConfig", "src/Compiler/JsonConfigObject.cpp:loadFromFile,storeToFile,getCompileOptions", "src/onnx-mlir.cpp:main"]}
{"id": "C123", "title": "External commands", "statement": "A tool of the compilation is started with exactly the arguments that were given since the last reset, without empty ones, in the requested directory; the caller gets its exit code, an exception when a signal ended it, or an error code when it could not be started, and zero only if the tool was started and ended with zero. The current directory is the same afterwards.", "quantifier": "all histories of calls, arguments, directories, behaviours of the system and ways a tool ends", "why_tests_cant": "Failures of fork, of changes of directory and of the wait cannot be produced at will.", "anchors": ["src/Compiler/Command.cpp:exec,appendStr,appendList,resetArgs", "src/Compiler/CommandUtils.cpp:getAbsolutePathUsingCurrentDir"]}
{"id": "C124", "title": "Import of constant tensors", "statement": "The elements of a constant that is imported are the values that the model stores, whether in raw bytes, in the typed field, or in an external file at an offset, for every element type and on hosts of either byte order. External data that is accepted comes from a file below the directory of the model that has no other name.", "quantifier": "all element types, values, numbers of elements, byte orders, entries of external data and file systems", "why_tests_cant": "All bit patterns of all types, and adversarial models and file systems; hosts of the other byte order are not at hand.", "anchors": ["src/Builder/FrontendDialectHelper.cpp:onnxTensorProtoToElmAttr,readExternalData_LE,createElmAttr", "src/Dialect/ONNX/ElementsAttr/ElementsAttrBuilder.cpp:fromRawBytes,fromMemoryBuffer", "src/Support/Arrays.hpp:castArrayRef"]}
{"id": "C125", "title": "Changes of layout", "statement": "A change of layout makes a memory with the elements of its input, each at the place that the layout of the output gives to it, whatever the order in which the iterations of the parallel loops run, and reads and writes only inside of the two memories.", "quantifier": "all layouts of input and output, ranks, numbers of rows, lengths of rows, sizes of tiles, elements and orders of the iterations", "why_tests_cant": "All sizes and remainders with all schedules of the parallel loop; a read past the end is rarely seen.", "anchors": ["src/Conversion/ONNXToKrnl/Additional/LayoutTransform.cpp:inspectMappedLowestDim,generateLayoutWithMod,matchAndRewrite", "src/Dialect/Mlir/IndexExprBuilder.cpp:isTileFull", "src/Conversion/KrnlToLLVM/KrnlMemcpy.cpp"]}
{"id": "C126", "title": "Statistics of operations", "statement": "The statistics of operations that a compiled model carries are a JSON object whose keys are in increasing order, and that gives for every kind of operation, told by its name, the ranks of its operands and whether it is scalar, the exact number of such operations in the model.", "quantifier": "all models: all lists of operations with all names, operands and results", "why_tests_cant": "All combinations of operations and types; a count that is off, or a crash on a rare type, is not seen in a few models.", "anchors": ["src/Transform/WriteOpStatsToModuleAttribute.cpp:runOnOperation", "src/Dialect/ONNX/ONNXOps/OpHelper.cpp:isScalarTensor,hasShapeAndRank", "src/Support/TypeUtilities.cpp:getRank"]}
{"id": "C127", "title": "Elimination of common subexpressions with node names", "statement": "Operations that differ only in their node names are merged, the effects and results of a block do not change, and every operation that is left has the node name that it had before.", "quantifier": "all blocks of operations with one result in static single assignment form, all meanings of operations, arguments and states", "why_tests_cant": "All graphs with all coincidences of operations and names.", "anchors": ["src/Transform/ONNXCSEWithNodeName.cpp:saveAndRemoveNodeNames,runCSE,restoreNodeNames,needsNodeName"]}
{"id": "C128", "title": "Reading signatures at run time", "statement": "From the input signature of a compiled model, the run time reads back the element types and dimensions of all inputs, in order, so that the inputs that it makes fit the model.", "quantifier": "all signatures that the compiler writes: all numbers of inputs, element types, ranks, dimensions of 64 bits and names", "why_tests_cant": "All texts: names can have any brackets, commas and spaces, dimensions any digits and signs.", "anchors": ["src/Runtime/OMTensorListHelper.cpp:parseSignatureInfo,parseJsonStr,parseJsonInt,typeStringToOMDataType", "include/onnx-mlir/Runtime/OnnxDataTypeMetaData.inc"]}
{"id": "C129", "title": "Shapes of inputs that are made at run time", "statement": "When the run time makes inputs for a model from its signature and an option for shapes, every input has the rank and the known sizes of the signature, and the sizes that the last entry of the option about it asks for. Nothing is made if the two contradict each other, if a size is known from neither, or if the option is not well-formed.", "quantifier": "all signatures, and all options with any number of entries about single inputs, ranges and all inputs", "why_tests_cant": "All combinations of known and open sizes, of entries that overlap and of ranks.", "anchors": ["src/Runtime/OMTensorListHelper.cpp:parseEntry,parseShapeInfo,parseInputSpecs,omTensorListCreateFromInputSignature"]}
{"id": "C130", "title": "Tensors with rows of ones and zeros", "statement": "A tensor that is made with sequences of ones has, in every row along its last dimension, as many ones as asked for (all, if there is no place for more), followed by zeros only; with random numbers of ones, every row has at least one. Nothing is written outside of the tensor.", "quantifier": "all shapes, numeric element types, numbers of ones and random numbers", "why_tests_cant": "All shapes, including those with empty rows, and all random numbers.", "anchors": ["src/Runtime/OMTensorHelper.cpp:omTensorCreateSozData"]}
{"id": "C131", "title": "Tensors of strings in one buffer", "statement": "The buffer that is made for a tensor of strings has one element for every string, in order, and each element reads as its string; nothing is written outside of the buffer.", "quantifier": "all lists of strings, of all lengths", "why_tests_cant": "All numbers and lengths of strings, including empty ones.", "anchors": ["src/Runtime/OMTensorHelper.cpp:omTensorBuildStringBuffer"]}
{"id": "C132", "title": "Tensors with random integers", "statement": "A tensor that is filled with random integers has as many values as asked for, all of them between the bounds, for every type of integers and all bounds of that type.", "quantifier": "all integer types, bounds, sizes and sequences of random numbers", "why_tests_cant": "All bounds of all types, and all sequences of random numbers.", "anchors": ["src/Runtime/OMTensorHelper.cpp:fillBufferWithRandom,omTensorCreateWithRandomData"]}
{"id": "C133", "title": "Memory of inputs that are made at run time", "statement": "When the inputs of a model are made, the caller gets a list that owns every input once; when that fails at any point, the caller gets nothing, nothing stays allocated, and nothing is released twice.", "quantifier": "all numbers of inputs and all points at which an input or an allocation fails", "why_tests_cant": "All points of failure, including allocations that rarely fail.", "anchors": ["src/Runtime/OMTensorListHelper.cpp:omTensorListCreateFromInputSignature", "src/Runtime/OMTensorList.inc:omTensorListCreate"]}
{"id": "C134", "title": "Values of inputs that are made at run time", "statement": "When inputs are made with an option for values, every input is made as the last entry about it asks for: rows of ones, or random values between its bounds, with the defaults where no bound is given. Options about inputs that do not exist, or that ask for both kinds at once, are refused.", "quantifier": "all options with any number of entries and words, and all defaults", "why_tests_cant": "All combinations of words and of entries that overlap.", "anchors": ["src/Runtime/OMTensorListHelper.cpp:parseValueInfo,parseEntry,omTensorListCreateFromInputSignature"]}
