{"id": "C01", "title": "AutoBuffer is a value-semantic resizable sequence", "statement": "After any sequence of construct / resize / reserve / resize_static / push_back / indexed write / copy / assign operations on an AutoBuffer, its size and the elements readable through it are those of an ordinary resizable list subjected to the same operations: growing keeps the old prefix, push_back appends exactly one element, and the size never exceeds the capacity of the storage in use.", "quantifier": "every static capacity, every element type value, every finite history of operations on one buffer, every index", "why_tests_cant": "the bug classes are size/capacity boundary cases reached only by particular histories (static to dynamic switch, shrink then grow, push at exactly full capacity)", "anchors": ["modules/utils/include/litiv/utils/cxx.hpp: AutoBuffer::AutoBuffer/resize/reserve/resize_static/push_back/operator="]}
{"id": "C02", "title": "AutoBuffer checked access", "statement": "AutoBuffer::at(i) either throws or returns the i-th element of the buffer, for every index value of every index type; it never reads outside the buffer.", "quantifier": "every buffer size, every index of a signed or unsigned integer type", "why_tests_cant": "an index domain of 2^64 values; only the sign boundary is interesting and the code's own tests use unsigned literals", "anchors": ["modules/utils/include/litiv/utils/cxx.hpp: AutoBuffer::at"]}
{"id": "C03", "title": "WorkerPool runs every accepted task exactly once and drains before destruction", "statement": "For every interleaving of any number of workers and any number of queueTask calls followed by destruction of the pool: no accepted task is lost, none is started twice, tasks are started in the order in which they were accepted, and when the destructor has joined its workers every accepted task has finished.", "quantifier": "every number of workers >= 1, every task list, every schedule of worker and client steps, including spurious wake-ups", "why_tests_cant": "thread schedules are unbounded and not controllable from a test", "anchors": ["modules/utils/include/litiv/utils/cxx.hpp: WorkerPool::queueTask/entry/~WorkerPool"]}
{"id": "C04", "title": "Semaphore conserves permits", "statement": "The value of a Semaphore always equals its initial value plus completed notify calls minus completed wait/try_wait calls, it is never negative, and a waiter can proceed whenever the count is positive.", "quantifier": "every initial count, every interleaving of notify, wait and try_wait by any number of threads", "why_tests_cant": "needs every interleaving", "anchors": ["modules/utils/include/litiv/utils/cxx.hpp: Semaphore::notify/wait/try_wait/count"]}
{"id": "C05", "title": "String split / join", "statement": "split(s,d) returns fields that contain no delimiter; joining them with d gives s back, except that one trailing delimiter is dropped; the empty string gives no fields.", "quantifier": "every string, every delimiter character", "why_tests_cant": "all strings; the trailing-delimiter case is an easily missed edge", "anchors": ["modules/utils/include/litiv/utils/cxx.hpp: split", "modules/utils/src/cxx.cpp: lv::split"]}
{"id": "C06", "title": "clampString has the requested length", "statement": "clampString(s,n,c) always returns exactly n characters: the first n characters of s when s is long enough, otherwise s right-aligned after a run of c.", "quantifier": "every string, every target size, every padding character", "why_tests_cant": "all strings and sizes", "anchors": ["modules/utils/src/cxx.cpp: lv::clampString"]}
{"id": "C07", "title": "putf formatting never loses characters", "statement": "putf(fmt,...) returns exactly the formatted text, whatever its length.", "quantifier": "every formatted output length", "why_tests_cant": "the internal buffer switch happens at one exact length, 1024; tests print short strings", "anchors": ["modules/utils/src/cxx.cpp: lv::putf"]}
{"id": "C08", "title": "filter_in / filter_out partition a sequence", "statement": "filter_in(v,keep) and filter_out(v,drop) return, in the original order and with multiplicity, exactly the elements that are / are not in the reference set; for the same reference set the two results partition v.", "quantifier": "every vector and every reference vector", "why_tests_cant": "all sequences with repetitions", "anchors": ["modules/utils/include/litiv/utils/cxx.hpp: filter_out/filter_in"]}
{"id": "C09", "title": "indices_of locates every element", "statement": "indices_of(vals,refs) returns for each value the position of its first occurrence in refs, and refs.size() when absent; with an empty refs it reports absence for all values.", "quantifier": "every pair of vectors", "why_tests_cant": "all sequences; the empty-reference case is special-cased in the code", "anchors": ["modules/utils/include/litiv/utils/cxx.hpp: indices_of"]}
{"id": "C10", "title": "sort_indices / unique_indices return valid index sets", "statement": "sort_indices returns a permutation of 0..n-1 that sorts the input; unique_indices returns indices whose values are pairwise distinct, ascending, and cover every value of the input.", "quantifier": "every vector over a linearly ordered type, every outcome of the unstable sort", "why_tests_cant": "tie order depends on the standard library", "anchors": ["modules/utils/include/litiv/utils/cxx.hpp: sort_indices/unique_indices"]}
{"id": "C11", "title": "make_range enumerates the arithmetic progression", "statement": "make_range(a,b,step) with step > 0 dividing b-a returns a, a+step, ..., b (both ends included, (b-a)/step+1 values); with b < a it returns nothing.", "quantifier": "all integer a, b, step meeting the documented precondition", "why_tests_cant": "all ranges", "anchors": ["modules/utils/include/litiv/utils/cxx.hpp: make_range"]}
{"id": "C12", "title": "cumulativeSum and accumulateMembers", "statement": "cumulativeSum(v)[i] is the sum of the first i+1 elements and has the length of v; accumulateMembers(v,f,init) is init plus the sum of f over v.", "quantifier": "every vector, every member function", "why_tests_cant": "all sequences", "anchors": ["modules/utils/include/litiv/utils/cxx.hpp: cumulativeSum/accumulateMembers"]}
{"id": "C13", "title": "digit_count is the printed width", "statement": "digit_count(x) equals the number of characters needed to print x, sign included.", "quantifier": "every representable integer", "why_tests_cant": "the loop is driven by a narrowing conversion to int whose effect shows only on extreme values", "anchors": ["modules/utils/include/litiv/utils/cxx.hpp: digit_count"]}
{"id": "C14", "title": "ispow2 / get_next_pow2", "statement": "ispow2(x) holds exactly for powers of two; get_next_pow2(x) is the least power of two that is >= x, whenever one is representable in 32 bits.", "quantifier": "every 32-bit unsigned value", "why_tests_cant": "2^32 values; 0 and values above 2^31 are boundary cases", "anchors": ["modules/utils/include/litiv/utils/math.hpp: ispow2/get_next_pow2"]}
{"id": "C15", "title": "popcount counts bits", "statement": "popcount(x) is the number of set bits of x for every integer width, whether computed by table lookup per byte or otherwise; hdist(a,b) is the number of bit positions where a and b differ.", "quantifier": "every value of every unsigned width that is a whole number of bytes", "why_tests_cant": "2^64 values per width", "anchors": ["modules/utils/include/litiv/utils/math.hpp: popcount/hdist"]}
{"id": "C16", "title": "hdist and gdist are metrics on descriptors", "statement": "hdist is zero exactly on equal descriptors, symmetric, obeys the triangle inequality and is at most the bit width; gdist (difference of popcounts) is bounded by hdist.", "quantifier": "all pairs and triples of descriptors", "why_tests_cant": "quantifies over all triples", "anchors": ["modules/utils/include/litiv/utils/math.hpp: hdist/gdist"]}
{"id": "C17", "title": "Array distances accumulate without loss", "statement": "The array forms of L1dist/hdist/popcount return the exact sum of the per-element distances.", "quantifier": "all array lengths and contents", "why_tests_cant": "the default accumulator type is narrow and wraps only on long or extreme arrays", "anchors": ["modules/utils/include/litiv/utils/math.hpp: L1dist/hdist/popcount array overloads"]}
{"id": "C18", "title": "L1/L2/colour distances", "statement": "L1dist and L2sqrdist of 8-bit data are exact (no wrap), symmetric, zero only for equal inputs, satisfy the triangle inequality (L1), and never exceed 255 resp. 255^2 per channel; cdist of 8-bit colours never divides by zero and is at most the L2 norm of the current colour.", "quantifier": "all 8-bit inputs, all channel counts", "why_tests_cant": "all inputs; division-by-zero guard", "anchors": ["modules/utils/include/litiv/utils/math.hpp: L1dist/L2sqrdist/cdist"]}
{"id": "C19", "title": "expand_bits spreads bits injectively", "statement": "expand_bits<n> places input bit i at output position i*n and nothing elsewhere.", "quantifier": "every input value and stride whose result fits the output", "why_tests_cant": "all values", "anchors": ["modules/utils/include/litiv/utils/math.hpp: expand_bits/extend_bits"]}
{"id": "C20", "title": "find_nn_index returns the first nearest element", "statement": "find_nn_index(ref,values) returns the smallest index whose distance to ref is minimal, and the all-ones index for an empty list.", "quantifier": "all vectors and distance functions", "why_tests_cant": "tie-breaking", "anchors": ["modules/utils/include/litiv/utils/math.hpp: find_nn_index"]}
{"id": "C21", "title": "LU solve / determinant / inverse", "statement": "invert(A) yields a matrix B with A*B = I whenever it reports success, and determinant(A) is the determinant of A, over exact arithmetic.", "quantifier": "all square matrices of every size over an ordered field", "why_tests_cant": "all matrices; pivoting paths", "anchors": ["modules/utils/include/litiv/utils/math.hpp: LU/determinant/invert"]}
{"id": "C22", "title": "Neighbour sampling stays in the image and in the kernel window", "statement": "getNeighborPosition_3x3/5x5 and getSamplePosition_3x3/7x7 always return coordinates inside the image (respecting the border), for every random number; away from borders the sampled position is inside the advertised kernel window, and neighbour positions differ from the centre.", "quantifier": "every random index, every centre, every border, every image larger than twice the border", "why_tests_cant": "random index drives a rarely-reached fall-through", "anchors": ["modules/utils/include/litiv/utils/opencv.hpp: clampImageCoords/getSamplePosition/getNeighborPosition"]}
{"id": "C23", "title": "Sampling kernel frequencies", "statement": "Over one full period of random indices, getSamplePosition hits each kernel cell exactly as many times as its kernel weight.", "quantifier": "every kernel cell", "why_tests_cant": "needs the full period for each cell", "anchors": ["modules/utils/include/litiv/utils/opencv.hpp: getSamplePosition_3x3_std1/getSamplePosition_7x7_std2"]}
{"id": "C24", "title": "Matrix archive round-trip", "statement": "A matrix written by lv::write in the binary formats and read back with lv::read has the same type, dimensions, sizes and bytes; a file that is a strict prefix of a valid one is rejected.", "quantifier": "every dimension count, size, element type and content", "why_tests_cant": "all matrices; truncation at every byte", "anchors": ["modules/utils/src/opencv.cpp: lv::write/lv::read"]}
{"id": "C25", "title": "packData / unpackData round-trip", "statement": "unpackData(packData(mats,&info),info) returns matrices equal to the originals (same type, sizes and bytes), in order, for any mix of sizes and types; matrices without elements come back empty. Whenever unpackData succeeds its outputs are disjoint pieces covering the packet; info that does not account for every byte is refused.", "quantifier": "every list of matrices", "why_tests_cant": "all lists and sizes", "anchors": ["modules/utils/src/opencv.cpp: lv::packData/lv::unpackData"]}
{"id": "C26", "title": "Packed YCbCr round-trip", "statement": "Converting a YCbCr triple to 16 bits and back preserves Y exactly and Cb/Cr up to their low four bits, and the vectorised path agrees with the scalar path.", "quantifier": "all 2^24 colour triples, all pixel counts (vector body plus scalar tail)", "why_tests_cant": "all triples and lengths", "anchors": ["modules/utils/include/litiv/utils/opencv.hpp: cvtBGRToPackedYCbCr/cvtPackedYCbCrToBGR"]}
{"id": "C27", "title": "Factor reduction represents the energy exactly", "statement": "The pseudo-Boolean terms produced from a factor of any order by the reducer, evaluated on any binary move vector, sum to the factor's energy after the move minus its energy before.", "quantifier": "every factor order, every energy function, every labelling and move", "why_tests_cant": "exponentially many assignments", "anchors": ["modules/utils/include/litiv/utils/opengm.hpp: factorReducer"]}
{"id": "C28", "title": "Async precaching is transparent", "statement": "For any history of getPacket requests, with precaching started or not, getPacket(i) returns exactly the packet the loading callback would produce for i.", "quantifier": "every request history, every interleaving of the precaching thread, every buffer size", "why_tests_cant": "schedules and request histories", "anchors": ["modules/datasets/src/utils.cpp: DataPrecacher::getPacket/startAsyncPrecaching/stopAsyncPrecaching/entry"]}
{"id": "C29", "title": "Precache ring buffer safety", "statement": "Packets held in the precaching buffer never overlap one another or the packet last handed to the user, and never extend past the end of the buffer.", "quantifier": "every sequence of packet sizes, requests and buffer sizes", "why_tests_cant": "wrap-around layouts depend on unbounded size histories", "anchors": ["modules/datasets/src/utils.cpp: DataPrecacher::entry (lCacheNextPacket)"]}
{"id": "C30", "title": "Async writer delivers each packet once", "statement": "Every packet accepted by DataWriter::queue while asynchronous writing is active is passed to the writing callback exactly once before stopAsyncWriting returns; packets are written in increasing index order among those queued; the accounted queue size always equals the bytes queued and never exceeds the configured maximum.", "quantifier": "every history of queue calls, sizes and worker interleavings", "why_tests_cant": "schedules", "anchors": ["modules/datasets/src/utils.cpp: DataWriter::queue/entry/stopAsyncWriting"]}
{"id": "C31", "title": "Output counter counts distinct packets", "statement": "The output count of a batch equals the number of distinct packet indices pushed since the last reset, irrespective of order and repetition.", "quantifier": "every history of push / reset", "why_tests_cant": "all histories", "anchors": ["modules/datasets/src/utils.cpp: IDataCounter::countOutput/getCurrentOutputCount/resetOutputCount"]}
{"id": "C32", "title": "Packet names are unique and sort correctly", "statement": "Default packet names are pairwise distinct within a batch, and sorting the output files by name gives packet order.", "quantifier": "every packet count and pair of indices", "why_tests_cant": "the zero-padding width switches at one packet count", "anchors": ["modules/datasets/src/utils.cpp: IDataHandler getInputName/getOutputName/getFeaturesName"]}
{"id": "C33", "title": "Group totals are the sum over leaf batches", "statement": "Input, ground-truth, output counts and loads of any dataset group equal the sums over the leaf batches below it, at any nesting depth, and getBatches(false) lists each leaf exactly once in order.", "quantifier": "every batch tree", "why_tests_cant": "unbounded tree shapes", "anchors": ["modules/datasets/src/utils.cpp: DataGroupHandler"]}
{"id": "C34", "title": "Binary classification counts partition the pixels", "statement": "BinClassif::accumulate adds, for every evaluated image, exactly one of TP/TN/FP/FN/DC per pixel, so that total(true) grows by the pixel count; shadow errors never exceed false positives.", "quantifier": "all images, ground truths and ROIs", "why_tests_cant": "all pixel combinations and sizes", "anchors": ["modules/datasets/src/metrics.cpp: BinClassif::accumulate", "modules/datasets/include/litiv/datasets/metrics.hpp: BinClassif"]}
{"id": "C35", "title": "Metric values stay in range", "statement": "Recall, specificity, FPR, FNR, precision and F-measure are in [0,1], PBC in [0,100], MCC in [-1,1] for every counter state whose evaluated pixel count TP+TN+FP+FN fits in 64 bits; no formula divides by zero; FPR = 1 - specificity and FNR = 1 - recall when defined.", "quantifier": "all counter values", "why_tests_cant": "all 64-bit counters; MCC multiplies counters", "anchors": ["modules/datasets/src/metrics.cpp: BinClassifMetrics"]}
{"id": "C36", "title": "Metric accumulation is order-independent", "statement": "Accumulating counters is associative and commutative with the zero counters as unit, so the totals for a dataset do not depend on how batches are grouped or ordered.", "quantifier": "all lists, permutations and groupings of counters", "why_tests_cant": "all permutations", "anchors": ["modules/datasets/include/litiv/datasets/metrics.hpp: BinClassif::accumulate", "modules/datasets/src/metrics.cpp: accumulate"]}
{"id": "C37", "title": "Averaged metrics are means over processed leaves", "statement": "getMetrics(true) on any group returns, for each metric, the arithmetic mean over the leaf batches that processed at least one packet, irrespective of nesting.", "quantifier": "every batch tree", "why_tests_cant": "all tree shapes", "anchors": ["modules/datasets/src/metrics.cpp: IMetricsCalculator::accumulate", "modules/datasets/include/litiv/datasets/metrics.hpp: MetricRetriever_"]}
{"id": "C38", "title": "LBSP descriptors agree across implementations", "statement": "The scalar, SSE2 and SSE4.1 threshold computations give the same 16-bit descriptor: bit n set exactly when |neighbour n - reference| > threshold.", "quantifier": "all neighbour values, references and thresholds", "why_tests_cant": "2^144 inputs", "anchors": ["modules/features2d/include/litiv/features2d/LBSP.hpp: computeDescriptor_threshold"]}
{"id": "C39", "title": "LBSP neighbourhood stays in bounds", "statement": "For every centre at least two pixels from each border, the descriptor reads sixteen distinct pixels of the 5x5 patch inside the image; border pixels are removed from any ROI by validateROI and from keypoints by validateKeyPoints.", "quantifier": "every image size, channel count and centre", "why_tests_cant": "all sizes", "anchors": ["modules/features2d/include/litiv/features2d/LBSP.hpp: computeDescriptor_lookup", "modules/features2d/src/LBSP.cpp: validateROI/validateKeyPoints"]}
{"id": "C40", "title": "LBSP gradient masks agree with the neighbourhood", "statement": "The gradient of a patch is the number of differing neighbours on one side of the centre minus the number on the other side, in x and in y, for the channel with the most differing neighbours; so mirroring the patch left-right (top-bottom) negates the x (y) component and keeps the rest.", "quantifier": "all descriptors", "why_tests_cant": "2^16 descriptors and all patches", "anchors": ["modules/features2d/include/litiv/features2d/LBSP.hpp: s_nDesc_16bitdbcross_Grad*"]}
{"id": "C41", "title": "Thinning only erodes and terminates", "statement": "thinning terminates on every binary image; the output is a subset of the input; re-thinning changes nothing; isolated pixels, line end points and border pixels are kept.", "quantifier": "every image size and content", "why_tests_cant": "all images; termination", "anchors": ["modules/imgproc/src/imgproc.cpp: lv::thinning"]}
{"id": "C42", "title": "Median value from a histogram", "statement": "calcMedianValue returns the smallest value v such that more than half of the selected pixels are <= v.", "quantifier": "every image and mask", "why_tests_cant": "all images, including masks selecting nothing", "anchors": ["modules/imgproc/src/imgproc.cpp: calcHistCounts/calcMedianValue"]}
{"id": "C43", "title": "Masked median filters", "statement": "medianBlur with a mask returns at each pixel the lower median of the unmasked neighbours inside the image; binaryMedianBlur equals medianBlur on 0/255 images.", "quantifier": "every image, mask and kernel size", "why_tests_cant": "all images and window clippings", "anchors": ["modules/imgproc/src/imgproc.cpp: lv::medianBlur/lv::binaryMedianBlur"]}
{"id": "C44", "title": "Non-maximum suppression marks isolated maxima", "statement": "nonMaxSuppression marks only pixels that are strictly larger than all others in their neighbourhood, and marks every such pixel away from the border; two marked pixels are never within the window of one another.", "quantifier": "every image, window size and mask", "why_tests_cant": "block decomposition vs. window boundary cases", "anchors": ["modules/imgproc/include/litiv/imgproc.hpp: nonMaxSuppression"]}
{"id": "C45", "title": "Directional local maxima on plateaus", "statement": "isLocalMaximum along a direction accepts at most one position of any plateau run within the half-window.", "quantifier": "every row of values and window", "why_tests_cant": "all plateaus", "anchors": ["modules/imgproc/include/litiv/imgproc.hpp: isLocalMaximum_*"]}
{"id": "C46", "title": "Integral image box sums", "statement": "The box sum read from an integral image with four lookups equals the sum over the box, for every box inside the image, with and without a mask.", "quantifier": "every image and box", "why_tests_cant": "all boxes", "anchors": ["modules/imgproc/src/imgproc.cpp: lv::integral/binaryIntegral/binaryMedianBlur"]}
{"id": "C47", "title": "ViBe model only contains observed values", "statement": "After any sequence of frames and any random numbers, every sample stored by ViBe for a pixel is a value observed in some frame at that pixel or within the sampling neighbourhood; the mask is 255 exactly when fewer than the required number of samples match and 0 otherwise; pixels labelled foreground never change the model.", "quantifier": "every frame history, random sequence, learning rate and image size", "why_tests_cant": "histories and randomness", "anchors": ["modules/video/src/BackgroundSubtractorViBe.cpp"]}
{"id": "C48", "title": "Background model pixel lookup is a bijection", "statement": "After initialization, the relevant-pixel table lists exactly the ROI pixels in increasing order, and the inverse table maps each back to its model index; coordinates are consistent with the linear index.", "quantifier": "every image size and ROI", "why_tests_cant": "all ROIs", "anchors": ["modules/video/src/BackgroundSubtractionUtils.cpp: IIBackgroundSubtractor::initialize_common"]}
{"id": "C49", "title": "ROI validation removes exactly the border", "statement": "validateROI keeps every ROI pixel at distance >= border from all sides unchanged and clears all others; it is idempotent.", "quantifier": "every ROI, border, size", "why_tests_cant": "all sizes", "anchors": ["modules/video/src/BackgroundSubtractionUtils.cpp: validateROI", "modules/features2d/src/LBSP.cpp: LBSP::validateROI"]}
{"id": "C50", "title": "File path filtering and directory slashes", "statement": "addDirSlashIfMissing is idempotent and yields a path ending with a separator; filterFilePaths keeps, in order, exactly the paths matching some keep token (or any if none given) and no remove token.", "quantifier": "all paths and token lists", "why_tests_cant": "all strings", "anchors": ["modules/utils/src/platform.cpp: addDirSlashIfMissing/filterFilePaths"]}
{"id": "C51", "title": "copyValidPixelsTo and shift", "statement": "shift by whole pixels (x,y) moves every pixel whose target lies inside the image and fills the rest with the border value; shifting back restores every pixel that was not pushed out; shifts as large as the image are rejected. copyValidPixelsTo writes exactly the (unmasked) pixels of the output region that lie inside the output image, each with the corresponding input pixel, returns how many it wrote, and reports the clipped region.", "quantifier": "all images, integer shifts, border modes, regions and masks", "why_tests_cant": "all shifts incl. larger than the image; all overlaps of regions", "anchors": ["modules/utils/src/opencv.cpp: lv::shift", "modules/utils/src/opencv.cpp: lv::copyValidPixelsTo"]}
{"id": "C52", "title": "SIMD reductions", "statement": "hsum, hmin, hmax and lane products computed with the vector sequences equal the sum, minimum, maximum and lane-wise modular products of the lanes.", "quantifier": "all lane values", "why_tests_cant": "2^128 inputs", "anchors": ["modules/utils/include/litiv/utils/simd.hpp"]}
{"id": "C53", "title": "Lookup-table function approximation stays in its table", "statement": "LUT::eval_* reads only inside its table for every argument in the interval (and in the safety margin outside), and returns the function value at the nearest sampled abscissa below / nearest.", "quantifier": "every interval, bin count, safety margin and argument", "why_tests_cant": "off-by-half index cases", "anchors": ["modules/utils/include/litiv/utils/cxx.hpp: LUT"]}
{"id": "C54", "title": "AutoBuffer self-insertion and moves between equal types", "statement": "push_back of an element of the buffer itself appends the value it had before the call, and moving a buffer into another of the same type transfers the contents without leaving the two objects sharing storage.", "quantifier": "every history and element", "why_tests_cant": "aliasing only shows at particular capacities and later frees", "anchors": ["modules/utils/include/litiv/utils/cxx.hpp: AutoBuffer::push_back, implicitly generated move operations"]}
{"id": "C55", "title": "extend_bits is a faithful widening", "statement": "extend_bits(v,o,e) maps o-bit values to e-bit values monotonically, sends 0 to 0 and the largest o-bit value to the largest e-bit value, and keeps v in its high bits.", "quantifier": "every pair of bit counts o <= e that fit the type, every o-bit value", "why_tests_cant": "all values of all widths", "anchors": ["modules/utils/include/litiv/utils/math.hpp: extend_bits"]}
{"id": "C56", "title": "interp1 interpolates linearly", "statement": "interp1(X,Y,x) with increasing X returns the ordinate at every knot, and between two knots the value of the straight segment joining them; requests outside [X.front,X.back] are rejected.", "quantifier": "all knot lists, all requests", "why_tests_cant": "all positions inside a segment, including the half nearer to its right end", "anchors": ["modules/utils/include/litiv/utils/math.hpp: interp1"]}
{"id": "C57", "title": "linspace spacing and end points", "statement": "linspace(a,b,n) has n values, constant spacing, ends at b and starts at a (or one step after a when the initial value is excluded), in exact arithmetic.", "quantifier": "all a, b, n", "why_tests_cant": "all sizes", "anchors": ["modules/utils/include/litiv/utils/math.hpp: linspace"]}
{"id": "C58", "title": "EMDL1dist is a metric", "statement": "EMDL1dist on arrays of one size is non-negative, zero exactly for equal arrays, symmetric and obeys the triangle inequality; moving mass t to the next bin costs |t| (exact arithmetic).", "quantifier": "all arrays and triples of arrays", "why_tests_cant": "quantifies over triples of arrays", "anchors": ["modules/utils/include/litiv/utils/math.hpp: EMDL1dist"]}
{"id": "C59", "title": "CEMDL1dist is the optimal circular transport cost", "statement": "CEMDL1dist is the minimum over all offsets of the summed absolute offset running differences, at most EMDL1dist, invariant under rotating both histograms, and zero exactly for equal normalized histograms, whatever order nth_element leaves behind.", "quantifier": "all pairs of equally sized arrays, all rotations, all outcomes of nth_element", "why_tests_cant": "all arrays; unspecified partition order", "anchors": ["modules/utils/include/litiv/utils/math.hpp: CEMDL1dist"]}
{"id": "C60", "title": "Unrolled loops and concatenation", "statement": "unroll<n> calls the given function exactly once for each index 0..n-1, in increasing order (decreasing when inverted), for every n; concat returns the elements of its arguments in order.", "quantifier": "every n, both directions, all vectors", "why_tests_cant": "template recursion instantiates per n", "anchors": ["modules/utils/include/litiv/utils/cxx.hpp: unroll/concat"]}
{"id": "C61", "title": "MCC is the Matthews correlation coefficient", "statement": "The MCC of a counter state is (TP*TN-FP*FN)/sqrt((TP+FP)(TP+FN)(TN+FP)(TN+FN)), or 0 when a factor of the denominator is 0, whatever the counter values.", "quantifier": "all counter values", "why_tests_cant": "products of 64-bit counters; a sample of small counters does not reach the interesting range", "anchors": ["modules/datasets/src/metrics.cpp: BinClassifMetrics::CalcMCC"]}
{"id": "C62", "title": "Stereo disparity errors are recorded and summarised exactly", "statement": "For every evaluated disparity map, the recorded errors are the absolute disparity differences of exactly the pixels inside the region of interest with valid ground truth, in raster order, and all other pixels are counted as don't care; the bad-pixel percentages, the average and the RMS error are those of all recorded errors, independent of the order, with percentages in [0,100] that decrease with the threshold and average <= RMS.", "quantifier": "all disparity maps, ground truths, ROIs and sequences of maps", "why_tests_cant": "all pixel combinations and sizes", "anchors": ["modules/datasets/src/metrics.cpp: StereoDispErrors::accumulate, StereoDispErrorMetrics"]}
{"id": "C63", "title": "Coloured masks show what the counters count", "statement": "The coloured classification mask of an image marks each pixel with the colour of the class in which BinClassif::accumulate counts it.", "quantifier": "all images, ground truths and ROIs", "why_tests_cant": "all pixel combinations and sizes", "anchors": ["modules/datasets/src/metrics.cpp: BinClassif::getColoredMask/accumulate"]}
{"id": "C64", "title": "Parsing finds exactly the unskipped batches", "statement": "Parsing a dataset directory creates one work batch for each subdirectory of each group directory whose names match no skip token, one for each unskipped group directory without subdirectory, and no other, in listing order.", "quantifier": "all directory listings and skip tokens", "why_tests_cant": "all trees of names", "anchors": ["modules/datasets/src/utils.cpp: DataGroupHandler::parseData", "modules/datasets/include/litiv/datasets.hpp: IDataset_::parseData"]}
{"id": "C65", "title": "A work batch can be processed repeatedly", "statement": "After stopProcessing, startProcessing (or resetMetrics) begins a new session: the output count restarts at zero, and getFinalOutputCount after the next stop returns the number of distinct packets of that session.", "quantifier": "every history of start/stop/push/reset calls", "why_tests_cant": "all histories", "anchors": ["modules/datasets/include/litiv/datasets.hpp: WorkBatch::startProcessing/stopProcessing", "modules/datasets/src/utils.cpp: IDataCounter::resetOutputCount"]}
{"id": "C66", "title": "Every directory layout and skip list gives a usable dataset", "statement": "Creating a dataset succeeds for every directory listing and every list of skip tokens, and printDataStructure lists its work batches in order.", "quantifier": "all directory listings and skip tokens", "why_tests_cant": "all trees of names", "anchors": ["modules/datasets/src/utils.cpp: DataHandler::printDataStructure/DatasetHandler::printDataStructure", "modules/datasets/include/litiv/datasets.hpp: IDataset_::parseData"]}
{"id": "C67", "title": "Saved binary masks are grayed outside the region of interest only", "statement": "A binary output mask is saved with value 127 at exactly the pixels outside the region of interest and unchanged elsewhere; any non-binary output is saved unchanged.", "quantifier": "all outputs and regions of interest", "why_tests_cant": "all pixel combinations and sizes", "anchors": ["modules/datasets/src/utils.cpp: IDataArchiver_<NotArray>::saveOutput"]}
{"id": "C68", "title": "Loader failures in the precaching thread are reported", "statement": "Once the loading callback has thrown in the precaching thread, the failure is never lost: the pending packet request, and every later start or stop of the precaching, throws. No failure is reported unless the callback threw.", "quantifier": "every loader, every schedule of the precaching thread and every later sequence of calls", "why_tests_cant": "schedules and call histories", "anchors": ["modules/datasets/src/utils.cpp: DataPrecacher::getPacket/startAsyncPrecaching/stopAsyncPrecaching/entry"]}
{"id": "C69", "title": "Write failures in the writing threads are reported once", "statement": "Each exception thrown by the archiving callback in a writing thread is rethrown by exactly one later stop or start of the asynchronous writer, and these calls return normally only when no failure is left to report.", "quantifier": "every history of calls, failures and worker interleavings, with any number of workers", "why_tests_cant": "schedules and failure points", "anchors": ["modules/datasets/src/utils.cpp: DataWriter::entry/stopAsyncWriting/startAsyncWriting"]}
{"id": "C70", "title": "Descriptor maps agree between the dense, keypoint and reshaped forms", "statement": "Describing a whole image writes each pixel's own descriptor at every pixel at least two pixels from the borders and nothing elsewhere; describing keypoints into a map gives the same result as describing them into a list followed by reshapeDesc; an extractor uses the threshold it was given.", "quantifier": "every image, reference image, threshold rule, keypoint list and previous map content", "why_tests_cant": "all images and keypoint lists", "anchors": ["modules/features2d/src/LBSP.cpp: lbsp_computeImpl/compute2/detectAndCompute/reshapeDesc"]}
{"id": "C71", "title": "Descriptor comparison counts differing bits", "statement": "calcDistances gives the number of differing bits over all channels without overflow; calcDescImgDiff gives 0 exactly for equal descriptors, 255 exactly when all bits differ, and never overflows when channels are merged.", "quantifier": "all pairs of descriptors of one to four channels", "why_tests_cant": "2^128 pairs", "anchors": ["modules/features2d/src/LBSP.cpp: calcDistances/calcDescImgDiff"]}
{"id": "C72", "title": "The generated shader computes the same descriptors", "statement": "Both variants of the generated GLSL function return, for every texture, reference and threshold, the descriptor the processor implementation returns.", "quantifier": "all textures, references and thresholds", "why_tests_cant": "all patches", "anchors": ["modules/features2d/src/LBSP.cpp: getShaderFunctionSource"]}
{"id": "C73", "title": "Thinning preserves connected components", "statement": "thinning neither splits, joins nor erases 8-connected components of set pixels: two remaining pixels are connected in the output exactly when they were connected in the input, and each component of the input keeps at least one pixel.", "quantifier": "every binary image, both modes", "why_tests_cant": "all shapes", "anchors": ["modules/imgproc/src/imgproc.cpp: lv::thinning/thinning_internal_ZhangSuen/thinning_internal_LamLeeSuen"]}
{"id": "C74", "title": "Thinning follows the published algorithms to their end", "statement": "A pass of Zhang-Suen clears exactly the inner pixels satisfying the published conditions on the image before the pass; Lam-Lee-Suen clears a visited pixel exactly when the published conditions hold at that moment; in the result no inner pixel satisfies the removal conditions of either sub-iteration.", "quantifier": "every image, both modes", "why_tests_cant": "all images", "anchors": ["modules/imgproc/src/imgproc.cpp: lv::thinning"]}
{"id": "C75", "title": "Neighbourhood consensus filter", "statement": "binaryConsensus writes 255 exactly where the number of set pixels of the image inside the kernel window reaches the minimum count given for that pixel, and 0 elsewhere; without a map of minimum counts it writes 255 exactly where a strict majority of the window is set.", "quantifier": "every image, kernel size and map of counts", "why_tests_cant": "all images, also at the borders where the window is clipped", "anchors": ["modules/imgproc/src/imgproc.cpp: lv::binaryConsensus"]}
{"id": "C76", "title": "PBAS stores only values observed at the pixel", "statement": "After any sequence of frames, every sample PBAS stores for a pixel is a value observed at that very pixel in some frame, or in the initialization image within the sampling neighbourhood; no image is accessed out of range; values of pixels labelled foreground never enter the model.", "quantifier": "every frame history, random sequence, decision thresholds and update rates (arbitrary per pixel and frame), image size and row stride", "why_tests_cant": "histories, randomness and adaptive feedback", "anchors": ["modules/video/src/BackgroundSubtractorPBAS.cpp: initialize, apply"]}
{"id": "C77", "title": "LOBSTER samples, masks and refreshes", "statement": "After any sequence of frames and model refreshes, every sample of every relevant pixel is a colour with the descriptor of one image of the history at one position at most 3 pixels away; before the median filter the mask is 255 exactly at relevant pixels with fewer than the required number of matching samples (matching: colour and descriptor distances within their thresholds, per channel and in total); only background pixels change the model; unforced refreshes leave foreground pixels alone and take only background positions; a scene that does not change is labelled background.", "quantifier": "every history of frames and refreshes, random sequence, ROI, image size and thresholds", "why_tests_cant": "histories and randomness", "anchors": ["modules/video/src/BackgroundSubtractorLOBSTER.cpp: initialize, refreshModel, apply", "modules/video/src/BackgroundSubtractorLBSP.cpp"]}
{"id": "C78", "title": "ROI validation of descriptor extractors", "statement": "validateROI of the LSS, DASC and mutual information extractors keeps exactly the ROI pixels at which the extractor's window fits inside the image and clears all others; it fails when the window is larger than the image.", "quantifier": "every ROI, window and image size", "why_tests_cant": "all sizes", "anchors": ["modules/features2d/src/LSS.cpp: LSS::validateROI", "modules/features2d/src/DASC.cpp: DASC::validateROI", "modules/features2d/src/MI.cpp: MutualInfo::validateROI"]}
{"id": "C79", "title": "Matrix alignment", "statement": "A matrix created with the aligned allocator has every innermost row (or, in the single-element variant, every element) starting at a multiple of the alignment, for every dimension count, shape and element size, with all elements inside the allocation and no two overlapping.", "quantifier": "every alignment, dimension count, shape, element size", "why_tests_cant": "shapes are unbounded", "anchors": ["modules/utils/include/litiv/utils/opencv.hpp: AlignedMatAllocator", "modules/utils/src/opencv.cpp: getMatAllocator16a"]}
{"id": "C80", "title": "Fractional shifts", "statement": "A shift by a fractional amount returns, at every pixel, the bilinear interpolation of the input (extended beyond its borders by the chosen border mode) at the displaced position.", "quantifier": "every image, fractional shift, border mode and pixel", "why_tests_cant": "continuous shifts, all images", "anchors": ["modules/utils/src/opencv.cpp: lv::shift"]}
{"id": "C81", "title": "Colours survive the HSL conversion", "statement": "Converting an 8-bit BGR colour to hue/saturation/lightness gives a hue in [0,360) and saturation and lightness in [0,1], and converting back returns the same colour, even if the triplet was perturbed by errors as large as a few thousandths of its scale.", "quantifier": "every 8-bit colour; every perturbation of the triplet below the stated bound", "why_tests_cant": "16.7 million colours times continuous perturbations; the errors of float storage differ per platform", "anchors": ["modules/utils/include/litiv/utils/opencv.hpp: getHSLFromBGR, getBGRFromHSL"]}
{"id": "C82", "title": "Unique colour maps are injective", "statement": "The colour map of an integer matrix gives two elements the same colour exactly when they are equal, whatever random start angles and shuffle are drawn; constant matrices become white and matrices with 720 or more distinct values are rejected.", "quantifier": "every matrix, every sequence of random angles, every shuffle", "why_tests_cant": "random generator seeded from the device; combinations of labels are unbounded", "anchors": ["modules/utils/include/litiv/utils/opencv.hpp: getUniqueColorMap, unique, getBGRFromHSL"]}
{"id": "C83", "title": "Selecting, squeezing and concatenating matrices keeps elements", "statement": "Selecting a range of a dimension of an n-dimensional matrix gives exactly the elements at the shifted indices; squeezing removes exactly the dimensions of size one and keeps every element at the corresponding index, also for views with gaps in memory; concatenation places every image in its block, whatever the output memory held. Requests outside of the matrix and mixed types are rejected.", "quantifier": "every number of dimensions, sizes, steps, memory contents, ranges and image lists", "why_tests_cant": "shapes, strides and number of dimensions are unbounded", "anchors": ["modules/utils/include/litiv/utils/opencv.hpp: getSubMat, squeeze, concat, hconcat, vconcat"]}
{"id": "C84", "title": "Matrix comparisons look at exactly the elements", "statement": "Two matrices are reported equal (or nearly equal) exactly if both are empty or they have the same shape and type and all elements (nearly) agree, whatever lies between their rows in memory; a channel-less view of a matrix shows the same values.", "quantifier": "every pair of matrices, including views of other matrices, and every memory content", "why_tests_cant": "strided views and element types combine without bound", "anchors": ["modules/utils/include/litiv/utils/opencv.hpp: isEqual, isNearlyEqual, getBasicMat"]}
{"id": "C85", "title": "Matrix sizes compare and convert faithfully", "statement": "Size objects are equal exactly if they list the same dimensions or both are without elements; equality is an equivalence relation; element counts are products of the dimensions; conversions between integer types and to OpenCV sizes keep the dimensions or are rejected.", "quantifier": "every list of dimensions and pair of integer types", "why_tests_cant": "integer ranges and dimension counts are unbounded; wrap-around only shows for huge sizes", "anchors": ["modules/utils/include/litiv/utils/opencv.hpp: MatSize_, cvtSizes"]}
{"id": "C86", "title": "Sub-pixel samples are bilinear interpolations", "statement": "A sample at fractional coordinates is the bilinear interpolation of the image extended by the chosen border mode; it equals the pixel at whole coordinates, lies within the range of the pixels, and no pixel outside of the image is read.", "quantifier": "every image, coordinates and border mode", "why_tests_cant": "continuous coordinates, all images", "anchors": ["modules/utils/include/litiv/utils/opencv.hpp: getSubPix"]}
{"id": "C87", "title": "SuBSENSE's adaptive values stay in range", "statement": "After any history of frames, model refreshes and changes of the automatic reset setting, every pixel's learning rate is between 1 and 512, its distance factor at least 1, its variation factor at least 0.1 and its running averages between 0 and 1; a frame leaves every rate between the caps in force; the values move in the documented direction; and no call fails.", "quantifier": "every image sequence, parameter set, random stream, mask filter and call history, float rounding included", "why_tests_cant": "floating-point state accumulated over unbounded histories", "anchors": ["modules/video/src/BackgroundSubtractorSuBSENSE.cpp: apply, initialize", "modules/video/include/litiv/video/BackgroundSubtractorSuBSENSE.hpp"]}
{"id": "C88", "title": "SuBSENSE's samples were shown nearby, and its masks follow the matching rule", "statement": "After any history every background sample is the colour and descriptor shown by one image at one position at most 3 rows and columns away; a frame labels a pixel background exactly when enough samples match within the documented thresholds, changes samples only to what it shows at a background pixel nearby (or the pixel itself in the cooldown after a reset), and flags as blinking exactly the pixels whose raw label changed in the last two frames away from final foreground.", "quantifier": "every image sequence, region, parameters, random stream, mask filter and call history", "why_tests_cant": "random choices and unbounded histories", "anchors": ["modules/video/src/BackgroundSubtractorSuBSENSE.cpp: apply, refreshModel", "modules/video/src/BackgroundSubtractorLBSP.cpp: initialize_common"]}
{"id": "C89", "title": "SuBSENSE's frame-level analysis is bounded and its resets are spaced", "statement": "The learning-rate caps stay within [1,2] and [1,256] (4 and 512 when the analysis is off), the descriptor threshold table stays between the initial table and its bounds and moves by at most one per frame, and after an automatic reset no other one happens for a quarter of the averaging window.", "quantifier": "every call history and parameter set", "why_tests_cant": "unbounded histories, float ratios", "anchors": ["modules/video/src/BackgroundSubtractorSuBSENSE.cpp: apply"]}
{"id": "C90", "title": "PBAS adapts within its limits and follows its feedback rules", "statement": "After any sequence of frames, PBAS has produced one mask per frame without any out-of-range access or remainder by zero; at each pixel the running mean of minimal distances is in [0,1], the threshold factor in [0.57,5.88], the learning rate between min(initial,2) and max(initial,200), and the mean gradient distance is at least 20. Each pixel is foreground exactly when fewer than the required number of samples are within the pixel's threshold, its three adaptive values follow the published feedback rules, a foreground frame never lowers its learning rate and a background frame never raises it, every stored sample was seen at initialization nearby or later at this very pixel, and scenes whose values differ by less than the smallest threshold never have foreground.", "quantifier": "every image size, sample count, default threshold, initial rate, frame sequence, learning rate override and random stream", "why_tests_cant": "unbounded histories, accumulated float rounding", "anchors": ["modules/video/src/BackgroundSubtractorPBAS.cpp: BackgroundSubtractorPBAS_1ch::apply, BackgroundSubtractorPBAS_3ch::apply, initialize"]}
{"id": "C91", "title": "The LBSP edge detector's image pyramid is exact and stays inside its buffers", "statement": "For every non-empty image and number of levels, level l has the image size halved l times rounding up, each pixel of a level is the pixel of even coordinates below it, replaced by the mean of its sixteen LBSP neighbours when at least two pixels away from each border, and nothing is read or written outside of the buffers, whatever earlier calls left in them.", "quantifier": "every image, size, channel count, number of levels and buffer content", "why_tests_cant": "image sizes and earlier calls are unbounded; unsigned wrap-around shows only for small levels", "anchors": ["modules/imgproc/src/EdgeDetectorLBSP.cpp: apply_internal_lookup"]}
{"id": "C92", "title": "LBSP edges are exactly the thin pixels connected to strong ones", "statement": "The output is 255 exactly at the pixels connected, through touching candidates, to a candidate whose magnitude reaches the threshold, and 0 elsewhere; candidates reach the low threshold and are local maxima, over five pixels, along the axis of the gradient; magnitude and gradient are the weakest over the pyramid levels. No edge lies within two pixels of a border. All accesses are in range and the search ends, whatever earlier calls left in the buffers.", "quantifier": "every image, size, number of levels, threshold, low threshold factor and buffer content", "why_tests_cant": "connectivity is a global property; stack growth and stale buffers depend on the whole history", "anchors": ["modules/imgproc/src/EdgeDetectorLBSP.cpp: apply_internal_threshold, apply_threshold", "modules/imgproc/include/litiv/imgproc/EdgeDetectionUtils.hpp: isLocalMaximum"]}
{"id": "C93", "title": "LBSP edge thresholds are monotone, and the confidence map counts them", "statement": "Raising the detection threshold never adds an edge pixel. The confidence of a pixel without normalization is 16 times (at most 255) the number of integer thresholds for which it is an edge pixel, and these are the lowest ones.", "quantifier": "every image, pair of thresholds, low threshold factor and buffer content", "why_tests_cant": "all images, all pairs of thresholds", "anchors": ["modules/imgproc/src/EdgeDetectorLBSP.cpp: apply, apply_threshold"]}
{"id": "C94", "title": "Joint histograms hold exact frequencies", "statement": "For any number of integer matrices of the same size, the marginal and joint histograms hold at every level (or combination of levels) the part of the elements that have it, sum to one, and each marginal is the sum of the joint over the other inputs. This holds with sparse and dense matrices, in the fast and the normal mode, for every quantization step, with or without the scan for extreme values, and whatever a reused output object held. Sparse matrices contain exactly the levels that occur, dense ones all the levels up to the largest value; the reported numbers of states are the numbers of elements; no access is outside of a matrix.", "quantifier": "every list of inputs, quantization step, mode and previous content of the output", "why_tests_cant": "unbounded inputs, all modes and all histories of the reused object", "anchors": ["modules/features2d/include/litiv/features2d.hpp: JointHistData, calcJointProbHist", "modules/utils/include/litiv/utils/opencv.hpp: getElem, getIterPos, zeroMat, getElemCount"]}
{"id": "C95", "title": "Mutual information is the textbook score", "statement": "The mutual information score of two images is the sum of p log2(p/(p1 p2)) over their levels, divided by the geometric mean of the entropies if normalized. It is never negative, at most each entropy (one if normalized), symmetric, equal to the entropy for an image with itself, zero exactly for independent levels, and depends only on which elements share a level: not on the order of the elements, the names of the levels, the kind of matrices or earlier calls. The fast mode gives the same score.", "quantifier": "every pair of inputs, mode, quantization step and earlier content of the reused object", "why_tests_cant": "holds for all images; involves logarithms of all frequencies", "anchors": ["modules/features2d/include/litiv/features2d.hpp: calcMutualInfo"]}
{"id": "C96", "title": "Image affinity maps hold the patch distances", "statement": "computeImageAffinity gives at each cell the distance of the two patches (one minus the normalized mutual information, or the Euclidean distance), or -1 where a pixel is outside its region or the second patch leaves the image. The result depends neither on the order in which threads process the cells nor on earlier calls. Distances by mutual information are in [0,1]; Euclidean ones are zero exactly for equal patches.", "quantifier": "all images of bytes, odd patch sizes, disparities and regions; all distributions of the iterations over threads; any content left in the threads' buffers", "why_tests_cant": "schedules and stale thread-local buffers cannot be enumerated", "anchors": ["modules/imgproc/src/imgproc.cpp: computeImageAffinity"]}
{"id": "C97", "title": "Descriptor affinity maps hold mean descriptor distances", "statement": "computeDescriptorAffinity gives at each cell the descriptor distance (patch of one pixel) or the mean of the distances available at that disparity in the patch, and -1 if there are none (outside of the image or a region). Values stay within the bounds of the distance, \u221a2 for normalized descriptors, whatever the order in which threads process the cells.", "quantifier": "all descriptor maps, non-negative distances, patch sizes, disparities, regions and iteration orders", "why_tests_cant": "schedules and sizes cannot be enumerated", "anchors": ["modules/imgproc/src/imgproc.cpp: computeDescriptorAffinity"]}
{"id": "C98", "title": "Log-polar masks are proper", "statement": "getLogPolarMask succeeds for all accepted arguments. Every cell is -1 or a bin smaller than radial*angular bins; the centre has no bin; all used cells lie between the reported first and last index, which are used cells themselves. The used cells form the disc around the centre.", "quantifier": "all odd sizes, bin counts, inner offsets and both strategies; any rounding of distances and angles", "why_tests_cant": "bin indices are used unchecked as array positions; a bad one exists only for some bin counts and cells", "anchors": ["modules/utils/src/opencv.cpp: getLogPolarMask"]}
{"id": "C99", "title": "Self-similarity descriptors measure the most similar patch of each bin", "statement": "Each bin of a dense LSS descriptor is exp(-m/var), m being the smallest sum of squared differences between the patch of the pixel and the patches at the cells of the bin. Pixels too close to the border get zeros. Normalized descriptors have norm one (so distances are at most \u221a2). The result does not depend on the order in which threads process the rows, on the previous content of the output, or on a constant added to the image; and a descriptor depends only on the pixels of its window.", "quantifier": "all parameters, images, thread schedules and previous contents", "why_tests_cant": "quantifies over all images and schedules", "anchors": ["modules/features2d/src/LSS.cpp: ssdescs_impl, ssdescs_norm", "modules/features2d/include/litiv/features2d/LSS.hpp: calcDistance"]}
{"id": "C100", "title": "Keypoint descriptors agree with the dense ones", "statement": "LSS keeps exactly the keypoints whose window fits in the image, and gives them the descriptors of the dense map. The map of keypoint descriptors is determined by the image and the keypoints. validateROI keeps exactly the pixels that can be described.", "quantifier": "all keypoint lists, images, parameters, regions and previous contents of the output", "why_tests_cant": "the previous content of a reused output matrix is arbitrary", "anchors": ["modules/features2d/src/LSS.cpp: compute2, detectAndCompute, ssdescs_impl, validateROI, validateKeyPoints"]}
{"id": "C101", "title": "Learning a Gaussian mixture computes the statistics of the samples", "statement": "After initLearning, any sequence of addSample and endLearning: no exception, the weight of each component is its share of the samples (the weights sum to one), its mean the mean of its samples, its covariance matrix the covariance of its samples, with 0.01 on the diagonal when that is nearly singular, always positive definite. Components without samples get weight zero and keep their parameters. The order of the samples does not matter, nor does the previous state.", "quantifier": "all component counts, dimensions, sample sequences and previous states", "why_tests_cant": "samples are arbitrary; degenerate sets (one point, points on a plane) are the hard case", "anchors": ["modules/utils/include/litiv/utils/math.hpp: GMM::initLearning, GMM::addSample, GMM::endLearning"]}
{"id": "C102", "title": "A learned mixture is a probability density", "statement": "The value of a component at a sample is the multivariate normal density of its mean and covariance; the value of the mixture is the weighted sum, non-negative, with integral one. The best component is one of largest density. Evaluating a learned mixture never fails.", "quantifier": "all learned mixtures and samples", "why_tests_cant": "an integral over all samples cannot be tested", "anchors": ["modules/utils/include/litiv/utils/math.hpp: GMM::operator(), GMM::getBestComponent"]}
{"id": "C103", "title": "Segment mixtures are trained on the pixels of their segment", "statement": "initGaussianMixtureParams trains the background mixture on exactly the background pixels of the region and the foreground one on the others, for any image with enough pixels or too few to train; assignGaussianMixtureComponents labels each pixel of the region with a most likely component of its segment's mixture; learnGaussianMixtureParams never throws and uses exactly the pixels with valid labels, so a round of assignment and learning uses every pixel.", "quantifier": "all images, masks, regions, label maps, mixtures and previous contents of the static buffers", "why_tests_cant": "any image and any stale label map may be given", "anchors": ["modules/imgproc/include/litiv/imgproc.hpp: initGaussianMixtureParams, assignGaussianMixtureComponents, learnGaussianMixtureParams"]}
{"id": "C104", "title": "Warps follow moving least squares", "statement": "For each point of the warp grid, the displacement computed by an ImageWarper leads to the image of the point by the best rigid (or similarity) transform from destination to source points, each weighted by the inverse of its squared distance, when a single best transform exists; at a destination point it leads exactly to the source point; when the points are related by one such transform, it is this transform.", "quantifier": "all lists of control points, grid points and both modes", "why_tests_cant": "any control points, coincident or aligned, may be given", "anchors": ["modules/imgproc/src/imwarp.cpp: ImageWarper::computeTransform"]}
{"id": "C105", "title": "Warped images sample the input in bounds", "statement": "warp writes every pixel of the output and nothing else, reads only pixels of the input, does not depend on uninitialised maps, and produces values within the range of the input; pixels on the grid are bilinear samples at their displaced position, so control points show their source pixel; points related by one transform warp every pixel by it; a ratio of zero, equal points or a single point copy the input.", "quantifier": "all images, sizes, grid steps, ratios, control points and initial memory contents", "why_tests_cant": "all sizes and grid steps, including cells cut by the border", "anchors": ["modules/imgproc/src/imwarp.cpp: ImageWarper::initialize, ImageWarper::warp, ImageWarper::computeTransform"]}
{"id": "C106", "title": "Shape contexts count the contour points around a key point in log-polar bins", "statement": "Every bin of the descriptor of a key point holds the initial value plus the number of contour points whose distance to the key point lies in the ring and whose direction lies in the sector of the bin, contour points that coincide with the key point or lie outside of the outer radius being counted nowhere and every other contour point exactly once; the descriptor maps hold the descriptor of each pixel that is a key point and the initial value elsewhere, in whatever order threads visit the key points.", "quantifier": "all contours, key points, radii, numbers of bins, image sizes and schedules of the parallel loop", "why_tests_cant": "all positions of real points relative to bin limits and all schedules", "anchors": ["modules/features2d/src/SC.cpp: ShapeContext::scdesc_fill_maps, ShapeContext::scdesc_fill_desc, ShapeContext::scdesc_fill_desc_direct, ShapeContext::compute2, ShapeContext::detectAndCompute"]}
{"id": "C107", "title": "Shape contexts are invariant to translation, rotation and scale as requested", "statement": "Translating the key points and the contour leaves the descriptors unchanged; with rotation invariance, so does rotating them; with relative distances, so does scaling them.", "quantifier": "all contours, key points, translations, angles and scale factors", "why_tests_cant": "all real transforms", "anchors": ["modules/features2d/src/SC.cpp: ShapeContext::scdesc_fill_maps, ShapeContext::scdesc_fill_desc"]}
{"id": "C108", "title": "Shape context bins are log-polar, descriptors are normalized and bin costs form a metric", "statement": "The radial limits grow geometrically from the inner to the outer radius and the angular limits split the turn equally; with normalization every descriptor has unit length and values between 0 and 1; the costs between bins used to compare descriptors are zero between equal bins, symmetric, satisfy the triangle inequality and are positive between different bins.", "quantifier": "all radii, numbers of bins, contours and pairs or triples of bins", "why_tests_cant": "all parameters of the constructors", "anchors": ["modules/features2d/src/SC.cpp: ShapeContext::scdesc_generate_radmask, ShapeContext::scdesc_generate_angmask, ShapeContext::scdesc_generate_emdmask, ShapeContext::scdesc_norm"]}
{"id": "C109", "title": "Shape context results do not depend on earlier calls", "statement": "Every call describes the key points it was given, or all pixels of its image, or the contour points, whatever calls were made before with other images or key points, and its result is returned in the matrix of the caller.", "quantifier": "all sequences of calls, sizes of images and prior contents of the output", "why_tests_cant": "all call histories", "anchors": ["modules/features2d/src/SC.cpp: ShapeContext::compute2, ShapeContext::detectAndCompute, ShapeContext::scdesc_fill_contours"]}
{"id": "C110", "title": "The recursive filter of DASC is an edge-aware mean", "statement": "Each iteration filters rows and then columns, forwards and then backwards, with a feedback that decreases with the difference between neighbouring pixels of the guide; the variances of the iterations add up to the requested one; every filtered pixel is a weighted mean of all pixels with positive weights that depend on the guide only, so values stay in the range of the input and constant images are unchanged; nothing left in buffers by earlier calls has an effect.", "quantifier": "all images, guides, sizes, numbers of iterations, parameters and contents of buffers", "why_tests_cant": "all real images and parameters", "anchors": ["modules/features2d/src/DASC.cpp: DASC::recursFilter, DASC::dasc_rf_impl", "modules/features2d/include/litiv/features2d.hpp: lv::localDiff"]}
{"id": "C111", "title": "DASC descriptors hold adaptive self-correlations and have unit length", "statement": "Each value compares the surroundings of two samples of a fixed pattern: it is exp(-2(1-c)) for their weighted correlation c, or 1 where the surroundings are flat; with the recursive filter no variance is negative and values lie between exp(-4) and 1; every descriptor is scaled to unit length, whatever filter is used.", "quantifier": "all images of accepted sizes, pixels and samples of the pattern", "why_tests_cant": "all real images, including flat ones where the correlation is undefined", "anchors": ["modules/features2d/src/DASC.cpp: DASC::dasc_rf_impl, DASC::dasc_gf_impl"]}
{"id": "C112", "title": "The guided filter of DASC fits local lines", "statement": "At each pixel the guided filter uses the line that best predicts the filtered image from the guide in the window around it, with a penalty on the slope, and gives the mean of these lines over the windows that cover the pixel, at the value of the guide; it is linear and leaves constant images unchanged.", "quantifier": "all images, guides, penalties and window weights", "why_tests_cant": "all real images, including guides without variance", "anchors": ["modules/features2d/src/DASC.cpp: DASC::guidedFilter, DASC::dasc_gf_impl"]}
{"id": "C113", "title": "DASC keeps the key points it can describe", "statement": "Describing key points reads nothing out of bounds and gives for each kept key point the dense descriptor of its pixel; a key point at a pixel is kept exactly if all samples of the pattern lie in the image; kept key points have a value for every sample.", "quantifier": "all lists of key points, masks, image sizes and samples of the pattern", "why_tests_cant": "all positions, including those at the border of the image", "anchors": ["modules/features2d/src/DASC.cpp: DASC::detectAndCompute, DASC::validateKeyPoints, DASC::borderSize"]}
{"id": "C114", "title": "Superpixel grids cover the frame", "statement": "Initializing superpixels fails only for a zero diameter, a zero count, or more superpixels than pixels; otherwise the cells cover the frame, every cell has a pixel, there is one superpixel for each cell and at least as many as requested, and the first centre of every superpixel is the pixel in the middle of its cell, or the last one of a cell cut by the border.", "quantifier": "all frame sizes, diameters, counts, frames, earlier contents of device memory and orders in which threads of the launches are executed", "why_tests_cant": "all sizes and all schedules of device threads", "anchors": ["modules/imgproc/src/SLIC.cpp: SLIC::initialize, SLIC::segment", "modules/imgproc/cuda/SLIC.cu: kInitClusters"]}
{"id": "C115", "title": "Every pixel is labelled with its nearest superpixel", "statement": "In every iteration each pixel is handled by exactly one device thread and gets the label of the first cluster, of those in its own cell and the eight around it, with the smallest distance in colour and position.", "quantifier": "all frames, grids, compactness values, limits of threads per block and orders in which device threads are executed", "why_tests_cant": "all schedules of device threads and all cluster states reached", "anchors": ["modules/imgproc/src/SLIC.cpp: SLIC::assignment", "modules/imgproc/cuda/SLIC.cu: kAssignment"]}
{"id": "C116", "title": "Superpixel iterations are memory safe, descend and keep no history", "statement": "Every iteration stays within the accumulators, moves clusters that have pixels to the mean of these pixels and keeps the others, never increases the total squared distance of pixels to their centres, and its result depends neither on the order in which device threads are executed nor on frames segmented before.", "quantifier": "all frames, grids, numbers of iterations, earlier frames and orders in which device threads are executed", "why_tests_cant": "all schedules of device threads, all histories of frames, all numbers of iterations", "anchors": ["modules/imgproc/src/SLIC.cpp: SLIC::segment, SLIC::update", "modules/imgproc/cuda/SLIC.cu: kAssignment, kUpdate"]}
{"id": "C117", "title": "Superpixel colours are CIE Lab colours", "statement": "Pixels are compared by their CIE 1976 L, a and b coordinates.", "quantifier": "all blue, green and red values of a pixel", "why_tests_cant": "all 16 million colours, including very dark ones", "anchors": ["modules/imgproc/cuda/SLIC.cu: kRgb2CIELab"]}
{"id": "C118", "title": "Enforcing connectivity gives connected superpixels of sufficient size", "statement": "Afterwards every pixel has a label, pixels of one connected region of the given labels still have the same label, pixels with the same label are connected, every region has at least a quarter of the mean number of pixels per superpixel, and the returned number counts the labels, which correspond one to one to the regions that were large enough.", "quantifier": "all frame sizes, numbers of superpixels and label maps", "why_tests_cant": "all label maps: regions of any shape, nested or touching the border, in any order of discovery", "anchors": ["modules/imgproc/src/SLIC.cpp: SLIC::enforceConnectivity"]}
{"id": "C119", "title": "Drawing superpixels shows mean colours", "statement": "Drawing superpixels never reads out of bounds; every pixel with a label gets the mean colour of all pixels with this label, rounded to the nearest integers, other pixels are black, and regions that have one colour already are not changed.", "quantifier": "all images, sizes and label maps", "why_tests_cant": "all images and label maps", "anchors": ["modules/imgproc/src/SLIC.cpp: SLIC::displayMean"]}
{"id": "C120", "title": "Drawing boundaries changes boundary pixels only and shows every boundary", "statement": "With a width of one, only pixels with at least two touching pixels of another label change; with larger widths exactly the squares of this width around these pixels change; next to any two pixels that share an edge and have different labels, some pixel is drawn.", "quantifier": "all images, sizes, label maps, colours and widths", "why_tests_cant": "all label maps; the set drawn depends on the order in which pixels are visited", "anchors": ["modules/imgproc/src/SLIC.cpp: SLIC::displayBound"]}
{"id": "C121", "title": "PAWCS dictionaries are complete after every history", "statement": "After initialization and any sequence of frames and refreshes, every relevant pixel has its full number of words, no word is shared, every word of the list is in use, every global word has a location map and every pixel ranks each global word exactly once; nothing outside of the lists is read or written.", "quantifier": "all image sizes with a border, regions of interest, word counts, random streams, thresholds and histories of frames and refreshes", "why_tests_cant": "every history and random stream; words are moved between slots on every access", "anchors": ["modules/video/src/BackgroundSubtractorPAWCS.cpp: BackgroundSubtractorPAWCS::initialize, refreshModel, apply"]}
{"id": "C122", "title": "PAWCS words come from observations near their pixel", "statement": "After initialization each word was seen at least once and the first word of a pixel is its heaviest; after every history each word is first seen no later than last seen, no later than now, and its colour and descriptor were observed within three pixels of the pixel, up to jitter and updates.", "quantifier": "all histories of frames and refreshes, random streams and pixels", "why_tests_cant": "every history; words pass between pixels", "anchors": ["modules/video/src/BackgroundSubtractorPAWCS.cpp: BackgroundSubtractorPAWCS::refreshModel, apply"]}
{"id": "C123", "title": "PAWCS labels follow the weights of matching words", "statement": "In every frame after every history, a relevant pixel is background exactly if the weights of its matching words reach the needed weight, or it is at the border of the region, or the first close global word makes up for the rest when it is consulted; in particular when its first word matches and the distance factor is at least one half. Other pixels are background.", "quantifier": "all histories, frames, pixels and random streams", "why_tests_cant": "every history and any float rounding; the scan stops early", "anchors": ["modules/video/src/BackgroundSubtractorPAWCS.cpp: BackgroundSubtractorPAWCS::apply"]}
{"id": "C124", "title": "PAWCS only gives up the lightest word of a pixel", "statement": "Processing a pixel keeps all of its words (matching ones are dated and reinforced) except that the lightest one is replaced by the observation if the matches are too light.", "quantifier": "all histories, frames, pixels and random streams", "why_tests_cant": "every history; words are sorted while they are compared", "anchors": ["modules/video/src/BackgroundSubtractorPAWCS.cpp: BackgroundSubtractorPAWCS::apply"]}
{"id": "C125", "title": "PAWCS reinforces the matching words of neighbours", "statement": "A pixel passes its observation to at most one relevant neighbour within two pixels; the words of the neighbour that match are dated and reinforced, and only its last word can be replaced.", "quantifier": "all histories, frames, pixels and random streams", "why_tests_cant": "every history and random stream", "anchors": ["modules/video/src/BackgroundSubtractorPAWCS.cpp: BackgroundSubtractorPAWCS::apply"]}
{"id": "C126", "title": "PAWCS ranks the global word of least value last", "statement": "After each frame in which global words are updated, the global word that a pixel ranks last has the smallest value at the pixel.", "quantifier": "all histories, frames, pixels and numbers of global words", "why_tests_cant": "every history", "anchors": ["modules/video/src/BackgroundSubtractorPAWCS.cpp: BackgroundSubtractorPAWCS::apply, refreshModel"]}
{"id": "C127", "title": "A PAWCS object can be initialized again", "statement": "Initializing an object that has a model gives complete dictionaries again.", "quantifier": "all images and previous histories", "why_tests_cant": "depends on what the previous model left in the dictionaries", "anchors": ["modules/video/src/BackgroundSubtractorPAWCS.cpp: BackgroundSubtractorPAWCS::initialize"]}
{"id": "C128", "title": "PAWCS adapts its per-pixel values within their ranges", "statement": "After any sequence of frames, the update rate of each pixel is in [1, 256], its variation factor is at least 0.1, its distance factor at least 1 and all its averages in [0, 1]; the values move in the documented directions; the resulting rates never lead to a remainder by zero; the descriptor threshold can always be computed.", "quantifier": "all frame histories, averaging windows, labels, distances and weights", "why_tests_cant": "the factors drift slowly: the failing shift needs thousands of frames, and the rounding of float operations matters at the bounds", "anchors": ["modules/video/src/BackgroundSubtractorPAWCS.cpp: BackgroundSubtractorPAWCS::apply"]}
{"id": "C129", "title": "PAWCS switches its camera mode only when it should", "statement": "The low weight offset is used exactly in the moving-camera mode; the mode is entered only in frame 500 and left only in frames whose number is a multiple of 500, by the distance of the model to the mean frame, and once left it is never entered again; each switch refreshes the model.", "quantifier": "all histories of frames and of calls to setAutomaticModelReset", "why_tests_cant": "a history property over hundreds of frames", "anchors": ["modules/video/src/BackgroundSubtractorPAWCS.cpp: BackgroundSubtractorPAWCS::apply", "modules/video/src/BackgroundSubtractionUtils.cpp: IIBackgroundSubtractor::setAutomaticModelReset"]}
{"id": "C130", "title": "PAWCS resets its model automatically on strong changes", "statement": "While automatic resets are on, a frame with a strong change resets the model unless a reset happened within the short-term window; resets are never closer than that; automatic resets can be switched on again.", "quantifier": "all histories of frames and of calls to setAutomaticModelReset", "why_tests_cant": "a history property over thousands of frames", "anchors": ["modules/video/src/BackgroundSubtractorPAWCS.cpp: BackgroundSubtractorPAWCS::apply", "modules/video/src/BackgroundSubtractionUtils.cpp: IIBackgroundSubtractor::setAutomaticModelReset"]}
{"id": "C131", "title": "Background images show the samples", "statement": "In the background image (and the background descriptor image) of ViBe, PBAS, LOBSTER and SuBSENSE each value is the mean of the samples of the pixel, rounded; in particular it lies between the smallest and the largest sample, and so between values observed near the pixel.", "quantifier": "all numbers of samples, image sizes, sample values and (for the gray subtractors) histories of frames", "why_tests_cant": "float sums are rounded at every step, so the claim depends on how many samples there are and on every value", "anchors": ["modules/video/src/BackgroundSubtractorViBe.cpp: getBackgroundImage", "modules/video/src/BackgroundSubtractorPBAS.cpp: getBackgroundImage", "modules/video/src/BackgroundSubtractorLOBSTER.cpp: getBackgroundImage, getBackgroundDescriptorsImage", "modules/video/src/BackgroundSubtractorSuBSENSE.cpp: getBackgroundImage, getBackgroundDescriptorsImage"]}
{"id": "C132", "title": "The background image of PAWCS shows observed features", "statement": "After every history of frames and refreshes the background image of PAWCS is defined at each pixel: zero outside of the region of interest, and inside a weighted mean, between the values observed near the pixel.", "quantifier": "all histories of frames and refreshes, random streams, word counts, channels and pixels", "why_tests_cant": "every history; the weights of all words of a pixel must not vanish together, and float sums are rounded at every step", "anchors": ["modules/video/src/BackgroundSubtractorPAWCS.cpp: getBackgroundImage, getBackgroundDescriptorsImage, GetLocalWordWeight"]}
{"id": "C133", "title": "A pixel of the virtual camera converted to a direction", "statement": "For a valid camera and a pixel of its image, the conversion gives angles in their ranges, and the direction they describe appears at this pixel; converting them back gives the same pixel. Everything else is refused with an exception.", "quantifier": "all image sizes, fields of view, camera directions and pixels", "why_tests_cant": "the camera direction, the field of view and the target are real numbers; an example says nothing about poles, borders or odd sizes", "anchors": ["modules/vptz/src/virtualptz.cpp: PTZPointXYtoHV, PTZPointHVtoXY"]}
{"id": "C134", "title": "A direction converted to a pixel of the virtual camera", "statement": "A direction at less than 90 degrees from that of the camera is given the pixel nearest to where it appears; a direction at more than 90 degrees is reported as not visible. The direction of the camera is the centre of its image.", "quantifier": "all valid cameras and directions", "why_tests_cant": "the failing directions are a thin set (exactly 90 degrees, one pixel left of the image)", "anchors": ["modules/vptz/src/virtualptz.cpp: PTZPointHVtoXY"]}
{"id": "C135", "title": "Ground truth seen by the virtual camera", "statement": "The translated box of a target is the box of the ground truth if the camera is that of the ground truth; a target behind the camera is reported as such; the point of a target is what the camera sees of it; invalid view angles are refused.", "quantifier": "all cameras, ground-truth directions and box sizes", "why_tests_cant": "boxes of every size and every pair of cameras", "anchors": ["modules/vptz/src/virtualptz.cpp: GTTranslator::GetGTBoundingBox, GTTranslator::GetGTTargetPoint, GTTranslator::UpdateViewAngle"]}
{"id": "C136", "title": "Settings and motions of the virtual camera", "statement": "Whatever is called, the settings stay valid; a horizontal angle is stored as the same direction in (-180,180]; going to a pixel centres what appears there; a motion takes the time of the smallest rotation plus that of the tilt.", "quantifier": "all histories of settings, motions, waits and frames, with valid and invalid values", "why_tests_cant": "every history and every angle, including whole turns", "anchors": ["modules/vptz/src/virtualptz.cpp: Camera::Set, Camera::GoToPosition, Camera::WaitDelay"]}
{"id": "C137", "title": "Playback of the virtual camera", "statement": "Playback starts at any frame of the video and at no other; each wait moves to the frame nearest to the simulated time and at least by one frame, and says if there is one; playback ends.", "quantifier": "all clocks, delays, frame rates and numbers of waits", "why_tests_cant": "depends on real clocks; no test can enumerate them", "anchors": ["modules/vptz/src/virtualptz.cpp: Camera::BeginPlaying, Camera::WaitDelay"]}
{"id": "C138", "title": "Frames and file of a tracker evaluation", "statement": "Whatever is called, a result is compared with a ground truth that exists; the frames evaluated in a test follow one another, within the range of the test; the file of results is complete when the evaluator is destroyed.", "quantifier": "all test sets and all histories of calls, including failing ones", "why_tests_cant": "every order of calls and failures", "anchors": ["modules/vptz/src/virtualptz.cpp: Evaluator::SetupTesting, Setup, BeginTesting, GetNextFrame, UpdateCurrentResult, EndTesting, ~Evaluator"]}
{"id": "C139", "title": "Measures of a tracker evaluation", "statement": "The overlap of two boxes is the proportion of common pixels; the average error and offset are means over the frames in view; a perfect tracker has an average overlap of 1.", "quantifier": "all boxes, and all histories of results", "why_tests_cant": "every history of results, in and out of view", "anchors": ["modules/vptz/src/virtualptz.cpp: Evaluator::UpdateCurrentResult, EndTesting"]}
{"id": "C140", "title": "Stereo associations of the segmentation matcher", "statement": "After the initialization and any sequence of label moves, the number of associations kept for every column of the other image is exactly the number of ROI pixels matched with it, each is recorded under its label, labels are legal, and a move changes exactly the chosen pixels; no move can fail.", "quantifier": "all image sizes, ROIs, disparity ranges, primary cameras, costs, optical-flow warps, sequences of labels and answers of the minimizer", "why_tests_cant": "the counters are updated incrementally over hundreds of moves; only an invariant over every history excludes drift", "anchors": ["modules/imgproc/src/SegmMatcher.cpp: addAssoc, removeAssoc, getAssocCount, resetStereoLabelings, solveStereo move loop"]}
{"id": "C141", "title": "Stereo energy never rises", "statement": "The value reported during inference is the energy of the current labeling; the move costs given to the minimizer are an upper bound of the energy change for every set of moved pixels; a persistent answer never raises the energy, so that the assertion of the move loop does not fire.", "quantifier": "all labelings reachable in the loop, all costs, labels and persistent answers", "why_tests_cant": "the number of sets of moving pixels is exponential, and the costs are approximations in floating point", "anchors": ["modules/imgproc/src/SegmMatcher.cpp: calcStereoMoveCosts, calcStereoUnaryMoveCost, calcAddAssocCost, calcRemoveAssocCost, calcTotalAssocCost, StereoGraphInference::value"]}
{"id": "C142", "title": "Prices of repeated matches", "statement": "A first match of a column is free, further matches never get cheaper, announced prices of removals and additions never undercut the real change, and the price tables are large enough for every accepted disparity range.", "quantifier": "all numbers of matches, all accepted disparity ranges and all reachable labelings", "why_tests_cant": "an access outside of the tables needs a specific labeling of a wide range of disparities", "anchors": ["modules/imgproc/src/SegmMatcher.cpp: GraphModelData::GraphModelData (association cost tables), calcTotalAssocCost"]}
{"id": "C143", "title": "Resegmentation keeps exact books of its energy", "statement": "The bookkeeping of the resegmentation solver is exact: after it is set up and after any number of label moves, the shares of every clique at the current labels sum up to the clique's cost, the total of every node and label is its own cost and its shares, and the totals at the current labels sum up to the energy of the labeling.", "quantifier": "all graphs with cliques of any size, all initial labelings, all series of moves and all answers of the minimizer", "why_tests_cant": "the books are integers that are split with remainders and corrected after every move; an error of one shows only for some costs and orders of moves", "anchors": ["modules/imgproc/src/SegmMatcher.cpp: setupPrimalDual, solvePrimalDual"]}
{"id": "C144", "title": "The minimizer is asked for the energy change", "statement": "For every clique of any size the table given to the minimizer holds the cost of every assignment less the shares, and the function that it has to minimize differs between any two moves by exactly the difference of the energies, so that the energy never grows from move to move.", "quantifier": "all graphs, all cliques of any size, all labelings, labels, moves and series of moves", "why_tests_cant": "the tables are filled in the order of a Gray code; a wrong entry only matters for a specific assignment", "anchors": ["modules/imgproc/src/SegmMatcher.cpp: solvePrimalDual, calcResegmMoveCosts", "3rdparty/sospd/include/litiv/3rdparty/sospd/submodular-functions.hpp: SubtractLinear"]}
{"id": "C145", "title": "Cliques have one number", "statement": "The numbers and positions under which the nodes of the resegmentation graph remember the cliques that they belong to are those that the solver uses, whatever the order in which threads register the cliques.", "quantifier": "all graphs, all numbers of temporal layers and all orders of the threads", "why_tests_cant": "the order of the threads cannot be chosen by a test, and a wrong number gives a worse labeling, not a failure", "anchors": ["modules/imgproc/src/SegmMatcher.cpp: updateResegmModel, initMinimizer, solvePrimalDual"]}
{"id": "C146", "title": "The nearest surface is seen from the other camera", "statement": "The disparities of one camera, seen from the other one: every pixel of its region of interest gets the largest disparity among the pixels matched with it, a disparity that it gets points back to a pixel with the same disparity, and a pixel is marked as occluded, in the labels and in the occlusion map alike, exactly if no pixel is matched with it (before smoothing).", "quantifier": "all label images, regions of interest, image sizes, disparity ranges and steps, and either camera", "why_tests_cant": "ties between surfaces depend on the whole row, and the rows are computed by several threads", "anchors": ["modules/imgproc/src/SegmMatcher.cpp: resetStereoLabelingByProjection, computeOcclusionMaps, getOffsetColIdx"]}
{"id": "C147", "title": "Disparity outputs are defined exactly inside of the region of interest", "statement": "Both disparity images given by the matcher have a label at every pixel of the region of interest of their camera, and the reserved label elsewhere; a pixel that lost its label to the smoothing takes the one of the nearest pixel of its row that has one.", "quantifier": "all optimized labels, regions of interest and image sizes", "why_tests_cant": "holes appear only for particular shapes of the region of interest", "anchors": ["modules/imgproc/src/SegmMatcher.cpp: resetStereoLabelingByProjection, infer"]}
{"id": "C148", "title": "A sequence of frames is processed relative to its own frames", "statement": "After any calls, the matcher holds the latest frames given since the last reset (the first one repeated if there are not enough); features are computed relative to the latest frame; giving back features computed for the next frame changes nothing; a matcher that was reset gives the same outputs as a new one for every continuation; the disparities of past layers stay those given for past frames.", "quantifier": "all sequences of frames, resets, features computed ahead and packets given, all contents of the memory before the first frame, whatever the inference computes", "why_tests_cant": "what is left in the memory after a reset depends on the whole history, and any of it could leak in a later frame", "anchors": ["modules/imgproc/src/SegmMatcher.cpp: apply, calcFeatures, setNextFeatures, resetTemporalModel, getOutput, infer"]}
{"id": "C149", "title": "The loops of the inference end, try all labels and notice changes", "statement": "Whatever the moves do, the inference ends by its own conditions within the configured numbers of moves; labels are tried in turn; a resegmentation pass that changes masks reports it, so that the stereo model follows.", "quantifier": "all results the optimizers can give, all configured limits", "why_tests_cant": "the number of moves and which of them change something depend on the optimizers and the images", "anchors": ["modules/imgproc/src/SegmMatcher.cpp: infer"]}
{"id": "C150", "title": "Initial disparities are the cheapest matches seen by both cameras", "statement": "At the first frame every pixel takes the disparity whose match in the other image costs least, the smallest one if several do, and it is a disparity whose match lies in the image and in the region of interest of the other camera whenever there is one.", "quantifier": "all images (through the costs of matches), regions of interest, image sizes, disparity ranges, and pixels", "why_tests_cant": "which disparities are out of view, and what they cost, depends on the position and on all other costs of the pixel", "anchors": ["modules/imgproc/src/SegmMatcher.cpp: updateStereoModel, resetStereoLabelings, getOffsetColIdx"]}
{"id": "C151", "title": "The smoothness cost of stereo labels is that of a distance", "statement": "The cost of neighbouring labels is zero for equal ones, symmetric, grows with the difference of disparities up to a limit, and never makes a detour through a third label cheaper.", "quantifier": "all labels, disparity ranges and steps, weights, and roundings", "why_tests_cant": "a table over all pairs and triples of labels for every configuration", "anchors": ["modules/imgproc/src/SegmMatcher.cpp: buildStereoModel", "modules/utils/include/litiv/utils/opengm.hpp: ExplicitScaledViewFunction"]}
{"id": "C152", "title": "Evaluating on the GPU gives the counters of the CPU evaluation", "statement": "The metrics returned by the GPU evaluator of a binary classifier are those which the CPU evaluation of the same outputs, ground truths and region of interest returns, whatever the order in which the invocations of the shader run and however often the metrics are read in between.", "quantifier": "every frame size, region of interest, sequence of outputs and ground truths, order of the atomic increments, and moments at which the metrics are read", "why_tests_cant": "The order of the invocations is chosen by the driver and the frame sizes are unbounded; a test runs a few sizes on one GPU.", "anchors": ["modules/datasets/src/eval.cpp: GLBinaryClassifierEvaluator", "modules/utils/src/opengl-imgproc.cpp: GLImageProcEvaluatorAlgo", "modules/datasets/src/metrics.cpp: BinClassif::accumulate"]}
{"id": "C153", "title": "The GPU counter buffer loses no frame", "statement": "Whatever the size limit of the counter buffer, after any number of frames up to the announced one, the buffer returned to the host holds in each row the counters of that frame and zeros for frames to come; no transfer leaves the buffers, and frames beyond the announced number are refused.", "quantifier": "every buffer size limit accepted by the constructor, number of frames, and sequence of evaluations and reads", "why_tests_cant": "The limit depends on the driver and the number of frames on the dataset; the paging is only exercised by long sequences.", "anchors": ["modules/utils/src/opengl-imgproc.cpp: GLImageProcEvaluatorAlgo::GLImageProcEvaluatorAlgo", "modules/utils/src/opengl-imgproc.cpp: GLImageProcEvaluatorAlgo::apply_gl", "modules/utils/src/opengl-imgproc.cpp: getEvaluationAtomicCounterBuffer"]}
{"id": "C154", "title": "The parallel prefix sum of a block is right in every schedule", "statement": "A work group of the prefix sum shader never accesses its shared array out of bounds and leaves in each of its columns the sum of the columns before it, in every interleaving of its invocations, for every block size the generator accepts.", "quantifier": "every accepted block size, row contents and interleaving of the memory operations between barriers", "why_tests_cant": "The interleavings of a GPU cannot be enumerated or forced, and out-of-bounds accesses are silent on most drivers.", "anchors": ["modules/utils/src/opengl-shaders.cpp: GLShader::getComputeShaderSource_ParallelPrefixSum"]}
{"id": "C155", "title": "Prefix sums of whole rows", "statement": "The prefix sum shader, dispatched as documented and followed by the block merge shader when a row is longer than a block, gives every column of a row the sum of the columns before it.", "quantifier": "every row length, block size, row contents and schedule", "why_tests_cant": "Depends on the row length relative to the block size of the driver, for every content.", "anchors": ["modules/utils/src/opengl-shaders.cpp: GLShader::getComputeShaderSource_ParallelPrefixSum", "modules/utils/src/opengl-shaders.cpp: GLShader::getComputeShaderSource_ParallelPrefixSum_BlockMerge"]}
{"id": "C156", "title": "The transpose shader transposes", "statement": "Dispatched as documented, the transpose shader writes every pixel of an image of any size to its transposed position and nothing else, in every order of its work groups and invocations.", "quantifier": "every image size and contents, block size, and order of work groups and of invocations around the barrier", "why_tests_cant": "Orders of execution on a GPU cannot be enumerated; partial tiles depend on the sizes.", "anchors": ["modules/utils/src/opengl-shaders.cpp: GLShader::getComputeShaderSource_Transpose"]}
{"id": "C157", "title": "Preloading fills the whole window", "statement": "When all invocations of a work group have returned from the generated preload function, its shared array holds the image pixel for every position of the work group and of the border around it; every invocation returns, no copy leaves the array, and the previous contents of shared memory do not matter.", "quantifier": "every work group larger than 3x3, border size, image, position of the work group and interleaving of the atomic increments and copies", "why_tests_cant": "The order in which invocations take their tickets cannot be controlled on a GPU, and uninitialised shared memory is usually zero in tests.", "anchors": ["modules/utils/src/opengl-shaders.cpp: GLShader::getComputeShaderFunctionSource_SharedDataPreLoad"]}
{"id": "C158", "title": "GPU median blur of a mask", "statement": "The GPU median blur of a binary mask gives at every pixel the majority of the square of the given size around it (background outside of the image), the same with and without shared memory; so does the post-processing stage of GPU LOBSTER, in every order of its work groups.", "quantifier": "every mask, kernel size, pixel and order of the work groups", "why_tests_cant": "Depends on the order of work groups, which a test cannot choose, and on all masks.", "anchors": ["modules/utils/src/opengl-shaders.cpp: GLShader::getComputeShaderFunctionSource_BinaryMedianBlur", "modules/video/src/BackgroundSubtractorLOBSTER.cpp: getComputeShaderSource_PostProc"]}
{"id": "C159", "title": "GPU random neighbours stay inside of the frame", "statement": "The generated neighbour function returns one of the eight neighbours of a position, each of them for some random value, and never one outside of the frame or within its border.", "quantifier": "every frame size, border, position and random value", "why_tests_cant": "Only a few positions and random values lead out of the frame.", "anchors": ["modules/utils/src/opengl-shaders.cpp: GLShader::getShaderFunctionSource_getRandNeighbor3x3"]}
{"id": "C160", "title": "GPU LOBSTER: one layout for host and shader", "statement": "The host and the shader of GPU LOBSTER agree on the place of every colour and descriptor word of the background model; different pixels, samples, channels and kinds have different words within the buffer; the background image and the descriptor image hold for each pixel and channel the mean of that pixel's samples, rounded down, with blue and red in image order.", "quantifier": "every frame size, gray or BGRA, number of samples, buffer contents, pixel and channel", "why_tests_cant": "Paddings and strides depend on the parameters; a wrong offset shows only for some of them.", "anchors": ["modules/video/src/BackgroundSubtractorLOBSTER.cpp: BackgroundSubtractorLOBSTER_<GLSL>::initialize_gl, getComputeShaderSource_LOBSTER, getBackgroundImage, getBackgroundDescriptorsImage"]}
{"id": "C161", "title": "GPU LOBSTER: initial model", "statement": "After initialization every sample of every pixel of the GPU model has the colour and the descriptor of one position of the first frame, inside of the frame and in the 7x7 window around the pixel.", "quantifier": "every frame size of at least 5x5, gray or BGRA, contents, threshold table and sequence of random numbers", "why_tests_cant": "All random choices and frames are meant.", "anchors": ["modules/video/src/BackgroundSubtractorLOBSTER.cpp: BackgroundSubtractorLOBSTER_<GLSL>::refreshModel"]}
{"id": "C162", "title": "GPU LOBSTER: refresh respects the mask", "statement": "Refreshing the GPU model without force leaves the samples of pixels which were foreground in the last frame untouched, takes new samples only from positions which were background, and reads nothing outside of the mask.", "quantifier": "every frame size, mask, frame, fraction of the samples and sequence of random numbers", "why_tests_cant": "All masks and frame shapes are meant.", "anchors": ["modules/video/src/BackgroundSubtractorLOBSTER.cpp: BackgroundSubtractorLOBSTER_<GLSL>::refreshModel"]}
{"id": "C163", "title": "GPU LOBSTER: classification", "statement": "The shader marks a pixel as foreground exactly if it is in the region of interest and fewer than the required number of its samples match the input in colour and texture; the early exit of the sample loop does not change this.", "quantifier": "every input, model contents, thresholds, required number and pixel", "why_tests_cant": "All combinations of samples are meant.", "anchors": ["modules/video/src/BackgroundSubtractorLOBSTER.cpp: getComputeShaderSource_LOBSTER", "modules/features2d/src/LBSP.cpp: getFunctionSource"]}
{"id": "C164", "title": "GPU LOBSTER: updates under concurrency", "statement": "In every interleaving of the invocations of a frame, each invocation ends and stays within the buffer, and each word of the model is unchanged or was stored for a pixel classified as background, in that pixel's or a neighbour's model, with the colour or descriptor of the input there. A sample pairs a colour with the descriptor of the same input.", "quantifier": "every input, model contents, sequence of random numbers and interleaving of the loads and stores of all invocations", "why_tests_cant": "Interleavings on a GPU can be neither chosen nor enumerated.", "anchors": ["modules/video/src/BackgroundSubtractorLOBSTER.cpp: getComputeShaderSource_LOBSTER"]}
{"id": "C165", "title": "GPU LOBSTER: an unchanging uniform scene is background", "statement": "If the GPU model is initialized on a scene of one colour and all frames show this colour, no pixel is ever foreground, in any interleaving and for any number of frames.", "quantifier": "every colour, frame size, number of frames, sequences of random numbers and interleavings", "why_tests_cant": "No bound on the number of frames, and all interleavings.", "anchors": ["modules/video/src/BackgroundSubtractorLOBSTER.cpp: refreshModel, getComputeShaderSource_LOBSTER"]}
{"id": "C166", "title": "GPU pipeline: frames are processed in order", "statement": "After an initialization with a first frame, calls with further frames produce the results of the algorithm on the first frame, the second, and so on: what is fetched after a call is the result for the frame given one call earlier, with that frame's number. This holds for every number of texture layers from two on and with or without double buffers, also after earlier use and a new initialization. A call without a frame makes the pipeline take an earlier frame again, and none is lost. The layers announced to the shaders as those of the last call hold its input and output.", "quantifier": "every algorithm (state and result), sequence of frames, history of calls, number of layers and buffer option", "why_tests_cant": "All histories and sequences of frames; a GPU is needed to run it at all.", "anchors": ["modules/utils/src/opengl-imgproc.cpp: GLImageProcAlgo::initialize_gl, GLImageProcAlgo::apply_gl, GLImageProcAlgo::fetchLastOutput"]}
{"id": "C167", "title": "GPU background subtractors and edge detectors: masks returned", "statement": "apply(image, mask) on a GPU background subtractor or edge detector returns the mask of the frame given one call before, from the first call on.", "quantifier": "every algorithm, sequence of frames and history of calls", "why_tests_cant": "All histories; the contents of an unfilled buffer vary from driver to driver.", "anchors": ["modules/video/src/BackgroundSubtractionUtils.cpp: getLatestForegroundMask, apply_gl", "modules/imgproc/src/EdgeDetectionUtils.cpp: getLatestEdgeMask, apply_gl"]}
{"id": "C168", "title": "Asynchronous consumer: every packet gets its own result", "statement": "A work batch processed on the GPU with the packet numbers 1, 2, ..., n counts, saves, passes to the callback and evaluates each of its n packets exactly once and in order, each with the result, input and ground truth of that very packet; with other numbers, all given packets but the last.", "quantifier": "every batch size, list of packet numbers, algorithm, evaluator, combination of saving, display, evaluation and validation", "why_tests_cant": "Off-by-one errors between the stages show only for some combinations of options and orders.", "anchors": ["modules/datasets/include/litiv/datasets/utils.hpp: IAsyncDataConsumer_::initialize_gl, pre_apply_gl, post_apply_gl", "modules/datasets/include/litiv/datasets/eval.hpp: DataEvaluatorWrapper_::post_initialize_gl", "apps/changedet/src/main.cpp: Analyze"]}
{"id": "C169", "title": "Plain text archives: what is read is what was written", "statement": "A matrix written to a plain text archive and read back has the same type, number of channels and sizes; its values are the same if they have at most six significant digits (so always for 8 and 16 bit matrices), and are otherwise converted from a decimal number at most 5e-6 of the value away. Archives of matrices with infinities or NaN cannot be read.", "quantifier": "every matrix of any depth, channel count and dimensions, every version and time stamp", "why_tests_cant": "Printing and parsing of numbers fails only for values near digit boundaries, ties and exponent changes.", "anchors": ["modules/utils/src/opencv.cpp: lv::write, lv::read", "modules/utils/include/litiv/utils/opencv.hpp: MatArchive_PLAINTEXT"]}
{"id": "C170", "title": "Display: the mouse callback reports the pixel under the mouse", "statement": "A display is a grid of equally large tiles, one per image. After any display, mouse events, keys and option changes, a mouse event on the display reports the tile size, display size and position in the tile such that the pixel shown under the mouse is the pixel of the tile's image at that position; the next display of that kind draws the cursor there on every tile, highlighted on the tile under the mouse only.", "quantifier": "every image grid, tile size, maximum size, history of events and mouse position", "why_tests_cant": "Positions on tile borders and sizes which do not divide evenly are easily missed.", "anchors": ["modules/utils/src/opencv.cpp: DisplayHelper::display, DisplayHelper::onMouseEventCallback", "modules/utils/include/litiv/utils/opencv.hpp: DisplayHelper"]}
{"id": "C171", "title": "Display: maximum size", "statement": "A display never exceeds the maximum size of the window, is not enlarged, keeps the suggested tile size if it is small enough, and can be shown.", "quantifier": "every maximum size, tile size and number of rows and columns", "why_tests_cant": "Only some proportions of image and screen go wrong.", "anchors": ["modules/utils/src/opencv.cpp: DisplayHelper::display, DisplayHelper::displayAlbumAndWaitKey", "modules/utils/include/litiv/utils/opencv.hpp: DisplayHelper::create"]}
{"id": "C172", "title": "Display: keys", "statement": "An album shows only its images, the one number of right steps minus left steps from the first, around its ends, until escape is pressed; the space bar, and no other key, switches between waiting for a key and continuing.", "quantifier": "every number of images, key sequence and key code", "why_tests_cant": "Key sequences are unbounded.", "anchors": ["modules/utils/src/opencv.cpp: DisplayHelper::displayAlbumAndWaitKey, DisplayHelper::waitKey"]}
{"id": "C173", "title": "Display: values and points", "statement": "Images with 16 bit, 32 bit and floating point values are shown with the nearest of 256 brightnesses of their expected range, in order. Points used by tools for a mouse position lie in the image, at the pixel under the mouse.", "quantifier": "every value, image size and mouse position", "why_tests_cant": "All values and positions cannot be tried by hand.", "anchors": ["modules/utils/src/opencv.cpp: DisplayHelper::display", "apps/handannot/src/main.cpp: Analyze", "modules/video/src/BackgroundSubtractorSuBSENSE.cpp: BackgroundSubtractorSuBSENSE::apply", "modules/video/src/BackgroundSubtractorPAWCS.cpp: BackgroundSubtractorPAWCS::apply"]}
{"id": "C174", "title": "Loader: packets as declared", "statement": "A packet returned by getInput or getGT has the size and type declared for its index. It shows the raw image, with channels converted and sampled at the same relative places; no new label appears. Packets that cannot be delivered so are refused; empty packets are only returned where nothing is declared.", "quantifier": "every raw image, declared information and packet policy", "why_tests_cant": "All combinations of sizes and types cannot be tried.", "anchors": ["modules/datasets/src/utils.cpp: transformImagePacket, IIDataLoader::getInput_redirect, IIDataLoader::getGT_redirect"]}
{"id": "C175", "title": "Loader: arrays belong to the requested packet", "statement": "getInputArray and getGTArray return one matrix per stream of the requested packet, as declared, whatever was requested before, also after failures.", "quantifier": "every sequence of requested indices, number of streams and contents", "why_tests_cant": "Caching errors depend on the history of requests.", "anchors": ["modules/datasets/src/utils.cpp: IDataLoader_<Array>::getInputArray, getGTArray, DataPrecacher::getPacket"]}
{"id": "C176", "title": "Loader: features are those on the disk", "statement": "loadFeatures and loadFeaturesArray return the features last saved for the packet, unpacked with the given information, or fail.", "quantifier": "every sequence of loads and saves", "why_tests_cant": "Caching errors depend on the history of calls.", "anchors": ["modules/datasets/src/utils.cpp: IIDataLoader::loadFeatures, saveFeatures, loadRawFeatures, IDataLoader_<Array>::loadFeaturesArray"]}
{"id": "C177", "title": "Loader: directories of images", "statement": "After parsing a directory, the packets are its readable images in order, each with its own declared information, and the constancy flag says whether all are the same. All packets can then be loaded as declared; beyond the count they are empty.", "quantifier": "every list of files, readable or not, scale and alignment", "why_tests_cant": "All patterns of unreadable files and sizes cannot be tried.", "anchors": ["modules/datasets/src/utils.cpp: IDataProducer_<DatasetSource_Image>::parseData, getInputInfo, getRawInput"]}
{"id": "C178", "title": "Loader: random access to videos and ground truth", "statement": "Packet n of a video is frame n whatever was read before, and empty beyond the end; the ground truth of a packet is the one mapped to it.", "quantifier": "every video, sequence of accesses and ground truth mapping", "why_tests_cant": "The reader keeps a position; all histories of accesses cannot be tried.", "anchors": ["modules/datasets/src/utils.cpp: IDataProducer_<DatasetSource_Video>::parseData, getRawInput, getInputInfo, getRawGT, getGTInfo"]}
{"id": "C179", "title": "Edge benchmark: random selection", "statement": "kOfN(k,n) returns k different integers of [0,n) in increasing order, whatever the random draws, and every such selection can be returned.", "quantifier": "all 0 <= k <= n, every state of the generators and every random draw", "why_tests_cant": "The result depends on random draws; boundary draws are never seen in tests.", "anchors": ["3rdparty/bsds500/src/kofn.cpp: kOfN, _kOfN_smallK, _kOfN_largeK"]}
{"id": "C180", "title": "Edge benchmark: counters", "statement": "With the benchmark matching, the evaluation ends without failed assertions; for each groundtruth mask detections and groundtruth pixels in range are matched one to one, recall counts the matched pairs over all groundtruth pixels and precision the detections matched at least once over all detections.", "quantifier": "every detection mask, list of groundtruth masks, frame size, maximal distance and random draw", "why_tests_cant": "All masks, random outlier connections and answers of the solver cannot be tried.", "anchors": ["modules/datasets/src/impl/BSDS500.cpp: BinClassifMetricsAccumulator_<BSDS500>::accumulate"]}
{"id": "C181", "title": "Edge evaluation without the benchmark: counters", "statement": "Without the benchmark code, recall counts the groundtruth pixels with a detection in range and precision the detections in range of the groundtruth.", "quantifier": "every detection mask, list of groundtruth masks, frame size and maximal distance", "why_tests_cant": "All masks cannot be tried.", "anchors": ["modules/datasets/src/impl/BSDS500.cpp: BinClassifMetricsAccumulator_<BSDS500>::accumulate"]}
{"id": "C182", "title": "Edge evaluation: thresholds", "statement": "The thresholds increase up to 255, and the counters of each threshold are those of the detections at or above it, although evaluations are shared between thresholds.", "quantifier": "every image of detections and list of thresholds", "why_tests_cant": "All images cannot be tried; sharing depends on which values occur.", "anchors": ["modules/datasets/src/impl/BSDS500.cpp: BinClassifMetricsAccumulator_<BSDS500>::accumulate", "modules/datasets/include/litiv/datasets/impl/BSDS500.hpp: BinClassifMetricsAccumulator_<BSDS500>", "modules/utils/include/litiv/utils/math.hpp: linspace"]}
{"id": "C183", "title": "Edge evaluation: best score", "statement": "The best score lies on the precision-recall curve through the given scores and no score nor point at a whole percentage between two consecutive ones has a larger F-measure.", "quantifier": "every nonempty list of scores", "why_tests_cant": "All lists of scores cannot be tried.", "anchors": ["modules/datasets/src/impl/BSDS500.cpp: FindMaxFMeasure", "modules/datasets/include/litiv/datasets/metrics.hpp: CalcFMeasure"]}
{"id": "C184", "title": "Edge evaluation: overall scores", "statement": "The overall score of a threshold is that of the counters of all images summed at this threshold, independently of their order; the max scores are those of the sums at each image's own best threshold.", "quantifier": "every number of images and thresholds and all counters", "why_tests_cant": "All counters and orders cannot be tried.", "anchors": ["modules/datasets/src/impl/BSDS500.cpp: BinClassifMetricsCalculator_<BSDS500>::updateScores"]}
{"id": "C185", "title": "Edge evaluation: area under the curve", "statement": "The scores end with the area under the interpolated precision-recall curve.", "quantifier": "every number of images and thresholds and all counters", "why_tests_cant": "The result depends on whether recalls coincide or span the whole interval.", "anchors": ["modules/datasets/src/impl/BSDS500.cpp: BinClassifMetricsCalculator_<BSDS500>::updateScores", "modules/utils/include/litiv/utils/math.hpp: interp1"]}
{"id": "C186", "title": "Datasets: evaluation reports", "statement": "After writeEvalReport the output directory holds exactly one report for each processed batch, each directory with processed batches and the dataset, each at its own place, and each lists every processed batch and directory below it exactly once with its metrics, and its totals.", "quantifier": "every set of directories, skipped names and processed outputs", "why_tests_cant": "All directory trees and partial progress cannot be tried.", "anchors": ["modules/datasets/src/eval.cpp: writeEvalReport, writeInlineBasicReport, writeInlineBinClassifEvalReport", "modules/datasets/src/utils.cpp: DataHandler, DataGroupHandler::parseData"]}
{"id": "C187", "title": "Imgproc: descriptor affinity on the GPU", "statement": "computeDescriptorAffinity on GPU matrices returns the same map as on CPU matrices (the mean Euclidean distance to the matched descriptors around each pixel, -1 where there are none), for every accepted number of disparities, patch size and regions, whatever the order in which the threads of the device run and whichever host threads called it before.", "quantifier": "every descriptor maps, regions, disparities, patch size, thread schedule of every block, initial device memory and history of calls", "why_tests_cant": "Thread schedules and histories of calls from several host threads cannot be enumerated, and no GPU is part of the test environment.", "anchors": ["modules/imgproc/src/imgproc.cpp: computeDescriptorAffinity (GpuMat)", "modules/imgproc/cuda/affinity.cu: l2dist_lu_exec, compute_desc_affinity_l2, compute_desc_affinity_l2_roi, compute_desc_affinity_patch, setDisparityRange"]}
{"id": "C188", "title": "Features: shape context on the GPU", "statement": "With CUDA enabled, detectAndCompute and compute2 of a ShapeContext return the descriptors of the CPU version: the number of contour points in each bin, plus the initial value, divided by the Euclidean norm when normalization is on; for every block size setBlockSize accepts and whatever the order in which the threads of the device run.", "quantifier": "every configuration with absolute distances, image, contour, key points, block size, thread schedule of every block and initial device memory", "why_tests_cant": "Thread schedules cannot be enumerated, and no GPU is part of the test environment.", "anchors": ["modules/features2d/cuda/SC.cu: scdesc_fill_desc_direct", "modules/features2d/src/SC.cpp: compute2, detectAndCompute, setBlockSize, scdesc_fill_desc_direct"]}
{"id": "C189", "title": "Utils: directory listings", "statement": "getFilesFromDir lists exactly the regular files of a directory other than Thumbs.db, getSubDirsFromDir exactly its subdirectories other than the two links, as paths in increasing order, whatever the order in which the file system enumerates the directory; a directory that cannot be opened gives empty lists.", "quantifier": "every file system, directory and enumeration order", "why_tests_cant": "The enumeration order is chosen by the file system; a test sees one of them.", "anchors": ["modules/utils/src/platform.cpp: getFilesFromDir, getSubDirsFromDir"]}
{"id": "C190", "title": "Datasets: numbered frames are read in the order of their numbers", "statement": "The files of a directory whose names differ by a frame number are listed, and hence read as packets, in the order of those numbers.", "quantifier": "every prefix, suffix, set of numbers and enumeration order", "why_tests_cant": "The sets of frame numbers are unbounded.", "anchors": ["modules/utils/src/platform.cpp: getFilesFromDir", "modules/datasets/include/litiv/datasets/impl/CDnet.hpp: parseData"]}
{"id": "C191", "title": "Datasets: frames and ground truth of CDnet", "statement": "Each frame of a parsed CDnet sequence has a ground truth, the file of the same number, and no other packet has one; a sequence that lacks a ground truth file is refused. Output names are distinct, complete and sorted like the packets.", "quantifier": "every file system and sequence, every packet index", "why_tests_cant": "The sets of frame numbers and file systems are unbounded.", "anchors": ["modules/datasets/include/litiv/datasets/impl/CDnet.hpp: parseData, getOutputName", "modules/datasets/src/utils.cpp: IDataProducer_<DatasetSource_Video>::getRawGT, getRawInput"]}
{"id": "C192", "title": "Datasets: frames and ground truth of Wallflower", "statement": "A Wallflower sequence (frames, a script, one hand segmented image) is parsed whatever the name of the directory it is stored in; packet k is frame k and the segmented image is the ground truth of the frame whose number is in its name, and of no other.", "quantifier": "every directory path, number of frames, segmented frame and enumeration order", "why_tests_cant": "Directory names and numbers of frames are unbounded.", "anchors": ["modules/datasets/include/litiv/datasets/impl/Wallflower.hpp: parseData"]}
{"id": "C193", "title": "Datasets: ground truth of PETS2001", "statement": "A packet of a PETS sequence has a ground truth exactly if there is a ground truth file of its number, and then it is that file, whatever the name of the directory and the number.", "quantifier": "every directory path, set of numbers and enumeration order", "why_tests_cant": "Directory names and sets of numbers are unbounded.", "anchors": ["modules/datasets/include/litiv/datasets/impl/PETS2001.hpp: parseData"]}
{"id": "C194", "title": "Datasets: frame subset files", "statement": "The subset file of a VAP or LITIV 2018 sequence, made of comments and frame numbers, selects exactly the frames it lists and, as temporal windows, exactly the frames of the sequence within the window size of a listed one, in increasing order and without repetition; a file that lists a frame that does not exist is refused.", "quantifier": "every subset file, window size and sequence length", "why_tests_cant": "All files and window sizes cannot be enumerated; overlapping, unsorted and repeated entries interact.", "anchors": ["modules/datasets/include/litiv/datasets/impl/vap-trimod2016.hpp: parseData", "modules/datasets/include/litiv/datasets/impl/litiv-stcharles2018.hpp: parseData"]}
{"id": "C195", "title": "Datasets: packets, ground truth and temporal breaks of VAP sequences", "statement": "With a frame subset loaded, the packets of a VAP sequence are the frames of the windows in order, exactly the listed frames have ground truth and it is that of the same frame in every stream, and isTemporalWindowBreak holds exactly where consecutive packets are not consecutive frames; with a subset only evaluated, or without subset, all frames are packets and there is no break after the first packet.", "quantifier": "every sequence of numbered frames, subset file, window size and mode", "why_tests_cant": "Depends on the whole listing and on the subset file; only one dataset copy is available to tests, if any.", "anchors": ["modules/datasets/include/litiv/datasets/impl/vap-trimod2016.hpp: parseData, isTemporalWindowBreak, getRawGTArray"]}
{"id": "C196", "title": "Datasets: packets, ground truth and temporal breaks of LITIV 2018 sequences", "statement": "The packets of a LITIV 2018 sequence are the frames of the windows (or all frames), each packet is given the ground truth files that carry its own frame number, if the frame is to be evaluated, and never those of another frame; isTemporalWindowBreak holds exactly where consecutive packets are not consecutive frames.", "quantifier": "every sequence of numbered frames, sets of ground truth files, subset file, window size and mode", "why_tests_cant": "Depends on whole directory listings and paths.", "anchors": ["modules/datasets/include/litiv/datasets/impl/litiv-stcharles2018.hpp: parseData, isTemporalWindowBreak, extractPathIndex, extractPathName"]}
{"id": "C197", "title": "Datasets: disparity ranges", "statement": "The bounds getMinDisparity and getMaxDisparity report contain every disparity of the range file after the offset of the second stream is applied, whatever the signs of the range and the scale factor; the ground truth disparity maps hold values within them.", "quantifier": "every disparity range, correspondence and scale factor", "why_tests_cant": "All ranges, signs and scale factors cannot be enumerated.", "anchors": ["modules/datasets/include/litiv/datasets/impl/vap-trimod2016.hpp: parseData", "modules/datasets/include/litiv/datasets/impl/litiv-stcharles2018.hpp: parseData, getRawGTArray"]}
{"id": "C198", "title": "Evaluation: metrics of a session", "statement": "After any sequence of startProcessing, push, resetMetrics and stopProcessing calls on a binary classification batch, its metrics are the pixel counts of exactly the outputs pushed with success since the batch was last cleared, each compared with the ground truth and region of interest of its own packet; a push succeeds exactly when the output is non-empty and of the right size (or nothing is evaluated).", "quantifier": "every history of calls, images, ground truth and regions of interest", "why_tests_cant": "Histories of calls are unbounded; a test fixes one order of calls and one set of images.", "anchors": ["modules/datasets/include/litiv/datasets/eval.hpp: DataEvaluatorWrapper_::processOutput, resetMetrics", "modules/datasets/include/litiv/datasets/utils.hpp: IDataConsumer_::push", "modules/datasets/include/litiv/datasets.hpp: startProcessing, stopProcessing"]}
{"id": "C199", "title": "Evaluation: output count, metrics and saved outputs agree", "statement": "The output count of a batch is the number of outputs that were evaluated, each packet entering the metrics once; the outputs saved are exactly the non-empty outputs pushed with success, with their own packet index, in order.", "quantifier": "every history of calls", "why_tests_cant": "Depends on failing pushes, repeated packets and resets in any order.", "anchors": ["modules/datasets/include/litiv/datasets/utils.hpp: IDataConsumer_::push", "modules/datasets/src/utils.cpp: IDataCounter::countOutput, resetOutputCount"]}
{"id": "C200", "title": "Evaluation: metrics of array sessions", "statement": "After any sequence of calls on an array batch the metrics of each stream are the pixel counts of that stream's images in exactly the arrays pushed with success since the batch was last cleared, so that all streams cover the same packets; a push of a wrong number of images has no effect on the metrics.", "quantifier": "every history of calls, number of streams, images, ground truth and regions of interest", "why_tests_cant": "Histories and stream counts are unbounded.", "anchors": ["modules/datasets/include/litiv/datasets/eval.hpp: DataEvaluatorWrapper_<DatasetEval_BinaryClassifierArray>::processOutput", "modules/datasets/include/litiv/datasets/utils.hpp: IDataConsumer_::push"]}
{"id": "C201", "title": "Datasets: packets of LITIV 2014 sequences", "statement": "The packets of a LITIV 2014 sequence are the frames for which both images and both masks exist, in the order of the infrared listing; every packet is given the paths of its own frame in every stream, and its real index is the number of the frame.", "quantifier": "every pair of directory listings of numbered frames", "why_tests_cant": "Depends on whole directory listings, in any order and with missing files.", "anchors": ["modules/datasets/include/litiv/datasets/impl/litiv-bilodeau2014.hpp: parseData", "modules/utils/include/litiv/utils/cxx.hpp: filter_in", "modules/utils/src/platform.cpp: filterFilePaths"]}
{"id": "C202", "title": "Datasets: ground truth of LITIV 2014 sequences", "statement": "Exactly the packets whose frame appears in the ground truth file have a ground truth, and its disparity map holds at every pixel the disparity the file gives for that frame and pixel, and the don't-care value elsewhere, mirrored when disparities are flipped; a file with an incomplete record is refused.", "quantifier": "every ground truth file, listing and pixel", "why_tests_cant": "All files cannot be enumerated; records of frames interleave, repeat and refer to missing frames.", "anchors": ["modules/datasets/include/litiv/datasets/impl/litiv-bilodeau2014.hpp: parseData, getRawGTArray"]}
{"id": "C203", "title": "Datasets: disparity range of LITIV 2014 sequences", "statement": "Every sequence with a well-formed ground truth file is read, and every value of its ground truth maps is don't-care or between getMinDisparity and getMaxDisparity, at every scale factor.", "quantifier": "every ground truth file and scale factor", "why_tests_cant": "All files and scale factors cannot be enumerated.", "anchors": ["modules/datasets/include/litiv/datasets/impl/litiv-bilodeau2014.hpp: parseData, getMinDisparity, getMaxDisparity, getRawGTArray"]}
{"id": "C204", "title": "Datasets: disparity maps of LITIV 2018 sequences", "statement": "When the two correspondence files agree, every pixel of the ground truth maps holds the disparity of the last pair recorded there, or the don't-care value, the LWIR map being moved by the offset and both maps mirrored together; files whose points do not refer to each other, or of different or zero length, are refused.", "quantifier": "every pair of files, offset, image size and pixel", "why_tests_cant": "All lists of points cannot be enumerated; pairs may overlap or be out of range.", "anchors": ["modules/datasets/include/litiv/datasets/impl/litiv-stcharles2018.hpp: getRawGTArray"]}
{"id": "C205", "title": "Datasets: disparities of LITIV 2018 lead to the matching pixel", "statement": "For every disparity range, from an RGB pixel with disparity v the matching pixel of the LWIR map is v columns to the left, or to the right with flipped disparities, and has disparity v.", "quantifier": "every range file, list of pairs and image size", "why_tests_cant": "Ranges of every sign and all lists of pairs cannot be enumerated.", "anchors": ["modules/datasets/include/litiv/datasets/impl/litiv-stcharles2018.hpp: parseData, getRawGTArray"]}
{"id": "C206", "title": "Datasets: inverse remapping of LITIV 2018 LWIR outputs", "statement": "Undoing the mirroring and the offset of an LWIR image, as inverseRemapOutput does, gives back every pixel that the offset did not push out of the image, and zero for the others.", "quantifier": "every image, offset and flip setting", "why_tests_cant": "All images and offsets cannot be enumerated.", "anchors": ["modules/datasets/include/litiv/datasets/impl/litiv-stcharles2018.hpp: getRawInputArray, inverseRemapOutput"]}
{"id": "C207", "title": "Files: preallocation keeps existing bytes, at every crash point", "statement": "createBinFileWithPrealloc keeps the bytes of an existing file and extends it with zeroes to the requested size, with the stream at the beginning; if the process stops at any point, the existing bytes are still there, and calling it again gives the same file.", "quantifier": "every file, size, platform and crash point", "why_tests_cant": "Crash points and file sizes cannot be enumerated.", "anchors": ["modules/utils/src/platform.cpp: createBinFileWithPrealloc"]}
{"id": "C208", "title": "Files: createDirIfNotExist tells whether the directory is there", "statement": "createDirIfNotExist returns true exactly if a directory is at the path afterwards, and it never replaces anything, whatever other processes do.", "quantifier": "every state of the path and action of other processes between the system calls", "why_tests_cant": "Depends on the interleaving with other processes.", "anchors": ["modules/utils/src/platform.cpp: createDirIfNotExist"]}
{"id": "C209", "title": "Datasets: createOutputDir makes the directory it returns", "statement": "createOutputDir returns a path ending with a separator, below the global directory, and that path is a directory afterwards, even if other processes make directories at the same time; nothing else is made, removed or replaced.", "quantifier": "every pair of names, file system and interleaving with other processes", "why_tests_cant": "File systems, nesting depths and interleavings cannot be enumerated.", "anchors": ["modules/datasets/src/utils.cpp: DataHandler::createOutputDir", "modules/utils/src/platform.cpp: createDirIfNotExist"]}
{"id": "C210", "title": "Datasets: directories of groups and batches", "statement": "Every dataset, group and batch has an output directory, a feature directory inside it and a data path at its relative path, and the directories of different batches of a group are apart, as are outputs and features.", "quantifier": "every relative path, name, file system and interleaving", "why_tests_cant": "Names and file systems cannot be enumerated.", "anchors": ["modules/datasets/src/utils.cpp: DataHandler::DataHandler, DatasetHandler::DatasetHandler, DataGroupHandler::parseData"]}
{"id": "C211", "title": "Metrics: coloured disparity error masks", "statement": "Each pixel of the mask inside the region of interest is coloured by the largest error found within 2 pixels, on a scale from 0 to the given maximum; pixels outside, or all of them without ground truth, are grey.", "quantifier": "every disparity map, ground truth, type, region of interest and maximal error", "why_tests_cant": "All images cannot be enumerated; the scale depends on the whole image.", "anchors": ["modules/datasets/src/metrics.cpp: StereoDispErrors::getColoredMask"]}
{"id": "C212", "title": "Image processing: differences along an optical flow", "statement": "computeTemporalAbsDiff gives, for every pixel, flow and channel, the absolute difference between the first image and the second one where the flow leads, interpolated, the border being repeated; so it stays between 0 and 255, and larger kernels smooth the result.", "quantifier": "every pair of images, flow and pixel", "why_tests_cant": "All flows and images cannot be enumerated.", "anchors": ["modules/imgproc/src/imgproc.cpp: computeTemporalAbsDiff", "modules/utils/include/litiv/utils/opencv.hpp: getSubPix"]}
{"id": "C213", "title": "Image processing: remapping by offsets", "statement": "remap_offset moves each pixel by its offset: the output takes the nearest input pixel at the position minus the offset, or the border value; an image moved along a constant flow shows no temporal difference along that flow.", "quantifier": "every image, offset map, border mode and pixel", "why_tests_cant": "All images and offsets cannot be enumerated.", "anchors": ["modules/imgproc/src/imgproc.cpp: remap_offset"]}
{"id": "C214", "title": "Segmentation matcher: nodes of the segmentation graph", "statement": "initialize accepts any two regions of interest with at least two pixels each; each of their pixels, in each camera and temporal layer, becomes exactly one node of the segmentation graph, and node numbers and pixel positions can be translated both ways.", "quantifier": "every grid size, number of layers and pair of regions of interest", "why_tests_cant": "Numbering must be consistent for every mask.", "anchors": ["modules/imgproc/src/SegmMatcher.cpp: GraphModelData", "modules/imgproc/include/litiv/imgproc/SegmMatcher.hpp: initialize"]}
{"id": "C215", "title": "Segmentation matcher: terms of the segmentation graph", "statement": "Each pair of neighbouring pixels in the same camera and frame shares exactly one smoothness term, known to both nodes; each pixel on the sampling grid has exactly one temporal term over the same pixel of all frames; no term joins cameras or wraps around a row.", "quantifier": "every grid size, number of layers, stride and pair of regions of interest", "why_tests_cant": "The terms must be right for every mask.", "anchors": ["modules/imgproc/src/SegmMatcher.cpp: buildResegmModel"]}
{"id": "C216", "title": "Segmentation matcher: cost buffers of the segmentation graph", "statement": "The cost tables of all terms lie in the allocated buffer and do not overlap, and no more functions are added than were reserved, so that pointers to them stay valid.", "quantifier": "every grid size, number of layers, stride and pair of regions of interest", "why_tests_cant": "Overlaps depend on the mask and sizes.", "anchors": ["modules/imgproc/src/SegmMatcher.cpp: GraphModelData, buildResegmModel"]}
{"id": "C217", "title": "Segmentation matcher: temporal terms follow the optical flow", "statement": "At each new frame, every temporal term is moved so that it joins, in the same camera, the pixels met by following the optical flow from the oldest frame to the latest, each rounded to the nearest pixel of the image; the term is turned off exactly if one of them is outside the region of interest, and with no motion it joins the same pixel of all frames.", "quantifier": "every grid size, number of layers, pair of regions of interest and optical flow field, including flows which leave the image", "why_tests_cant": "Index arithmetic must stay in its camera and layer for every flow field.", "anchors": ["modules/imgproc/src/SegmMatcher.cpp: updateResegmModel"]}
{"id": "C218", "title": "Segmentation matcher: costs of segmentation terms", "statement": "Costs are never negative; smoothness terms cost nothing for equal labels and are symmetric and submodular; the cost of a labelling in a temporal term is the sum over its label changes between consecutive frames; pixels without a match prefer the background; matching between cameras is mutual.", "quantifier": "every distance, gradient factor, disparity, region of interest, temporal difference and labelling", "why_tests_cant": "Minimization is only right if the tables are for every value.", "anchors": ["modules/imgproc/src/SegmMatcher.cpp: updateResegmModel, getOffsetColIdx"]}
{"id": "C219", "title": "rootSIFT normalization", "statement": "rootSIFT keeps the order, signs and zeros of descriptor values, makes their squares proportional to the sizes of the original values, yields vectors of unit length up to rounding constants (never longer), and turns inner products into the Hellinger kernel; it rejects exactly the descriptors with negative values when these are not enabled.", "quantifier": "every descriptor size and real descriptor, with and without L2 normalization and negative value support", "why_tests_cant": "The claim is about all real vectors.", "anchors": ["modules/utils/include/litiv/utils/math.hpp: rootSIFT"]}
{"id": "C220", "title": "Sparseness measure", "statement": "sparseness of any vector of at least two values lies in [0,1], is 1 exactly for vectors with a single nonzero value and 0 exactly for vectors of equal magnitudes, and depends neither on scale nor on the order of values.", "quantifier": "every real vector of at least two values", "why_tests_cant": "The claim is about all real vectors; the bounds are inequalities between norms.", "anchors": ["modules/utils/include/litiv/utils/math.hpp: sparseness"]}
{"id": "C221", "title": "Segmentation matcher: shape distance features", "statement": "The shape features of a mask are exp(d/10)-1, capped at 10, for the distance d to the mask and to its complement; they stay in [0,10], exactly one of both is zero at each pixel, inverting the mask swaps them, growing the mask never increases the foreground one, and empty or full masks give the maximum.", "quantifier": "every image size and mask, including empty and full ones", "why_tests_cant": "Distances depend on all pixels of the mask.", "anchors": ["modules/imgproc/src/SegmMatcher.cpp: calcShapeDistFeatures"]}
{"id": "C222", "title": "litiv-stcharles2018: depth images seen from the RGB camera", "statement": "Each pixel of the loaded depth image or depth ground truth holds the value of the raw depth pixel nearest to its entry in the colour-to-depth map, mirrored if RGB images are mirrored, and zero if the entry is outside of the raw image; raw images are never read outside of their bounds, whatever the map.", "quantifier": "every image size, raw image and map, including entries which are no numbers", "why_tests_cant": "Map entries are arbitrary values read from files.", "anchors": ["modules/datasets/include/litiv/datasets/impl/litiv-stcharles2018.hpp: getRawInputArray, getRawGTArray"]}
{"id": "C223", "title": "litiv-stcharles2018: depth ground truth fits the depth image", "statement": "A depth ground truth mask drawn on the raw depth image is loaded such that it covers the same pixels of the loaded depth image.", "quantifier": "every raw image, mask and map", "why_tests_cant": "Holds only if for all images and maps.", "anchors": ["modules/datasets/include/litiv/datasets/impl/litiv-stcharles2018.hpp: getRawInputArray, getRawGTArray"]}
{"id": "C224", "title": "CUDA algorithms: initialization and toggle", "statement": "However an algorithm object is constructed, initialized again, turned on and off, it is parallel only if it holds a usable device that it initialized; turning it on without one fails and changes nothing; a failed initialization turns it off; calls on one object leave the others as they are.", "quantifier": "every number of devices and capabilities, every sequence of calls and every failure of the CUDA runtime", "why_tests_cant": "Sequences of calls and failures cannot be enumerated.", "anchors": ["modules/utils/include/litiv/utils/algo.hpp: IParallelAlgo_<CUDA>", "modules/utils/src/cuda.cpp: init"]}
{"id": "C225", "title": "CUDA algorithms: device", "statement": "The current CUDA device is the one with which a parallel algorithm object was initialized.", "quantifier": "every number of devices, every sequence of calls and every failure of the CUDA runtime", "why_tests_cant": "Sequences of calls cannot be enumerated.", "anchors": ["modules/utils/include/litiv/utils/algo.hpp: IParallelAlgo_<CUDA>", "modules/utils/src/cuda.cpp: init"]}
{"id": "C226", "title": "Canny detector: confidence maps", "statement": "The confidence map orders pixels exactly as the number of thresholds from 0 to 254 for which they are edges: more thresholds always means a larger value; pixels which are never edges have 0, the strongest pixels 255, and the smoothing kernel is accepted for every sigma.", "quantifier": "every non-empty image, factor and sigma, and every edge and smoothing function", "why_tests_cant": "Loss of order by rounding would depend on the image.", "anchors": ["modules/imgproc/src/EdgeDetectorCanny.cpp: EdgeDetectorCanny, apply, apply_threshold"]}
{"id": "C227", "title": "Canny detector: thresholds", "statement": "The edge mask is the one for the given threshold if it lies between 0 and 1, and for the default threshold otherwise, with a lower threshold at a fixed part of the upper one.", "quantifier": "every image, factor, sigma and threshold", "why_tests_cant": "Thresholds are real numbers.", "anchors": ["modules/imgproc/src/EdgeDetectorCanny.cpp: apply_threshold", "modules/imgproc/include/litiv/imgproc/EdgeDetectorCanny.hpp: apply_threshold"]}
{"id": "C228", "title": "Canny detector: output in place of the input", "statement": "The confidence map does not depend on whether the given output is the input image itself.", "quantifier": "every image, factor and sigma", "why_tests_cant": "A claim about all images.", "anchors": ["modules/imgproc/src/EdgeDetectorCanny.cpp: apply"]}
{"id": "C229", "title": "Matrix types: codes and descriptions", "statement": "A matrix type is made exactly from the codes of one to four values of one of the seven data types; its depth, channels, sizes and name are those of these values, distinct types have distinct names, and it is compatible with exactly one data type, and counting channels with exactly one element type.", "quantifier": "every type code, data type, element type and number of channels", "why_tests_cant": "Codes and template arguments are too many to try; a wrong one reinterprets memory.", "anchors": ["modules/utils/include/litiv/utils/opencv.hpp: MatType, MatRawType_, CV_MAT_DEPTH_BYTES, CV_MAT_DEPTH_STR"]}
{"id": "C230", "title": "Matrix types: equality", "statement": "Two matrix types are equal exactly if they denote the same number of values of the same data type.", "quantifier": "every pair of accepted type codes", "why_tests_cant": "Pairs of codes cannot be enumerated by tests.", "anchors": ["modules/utils/include/litiv/utils/opencv.hpp: MatType"]}
{"id": "C231", "title": "LBSP shader source: threshold table", "statement": "The GLSL source generated for the descriptor thresholds declares an array of 256 numbers which, read back as GLSL, are the thresholds of the table in order; different tables give different sources.", "quantifier": "every threshold table", "why_tests_cant": "A table has 256 entries of any value.", "anchors": ["modules/video/src/BackgroundSubtractorLBSP.cpp: getLBSPThresholdLUTShaderSource"]}
{"id": "C232", "title": "VAP dataset: images match their announcement", "statement": "Every packet has one image per announced stream, of the announced size and type, for all combinations of the options for undistortion, rectification, depth, masks and scale.", "quantifier": "every combination of options, scale, scene and every image content", "why_tests_cant": "There are too many combinations of options, and the dataset is needed to run them.", "anchors": ["modules/datasets/include/litiv/datasets/impl/vap-trimod2016.hpp: getRawInputArray, getRawGTArray, parseData"]}
{"id": "C233", "title": "VAP dataset: masks stay aligned with images", "statement": "Each pixel of an image, of its input mask and of its ground truth comes from the same place of their files, in each modality, whatever is remapped, shifted and rotated; rectified images are turned by a quarter clockwise.", "quantifier": "every combination of options, every remapping which moves pixels, every offset and pixel", "why_tests_cant": "Alignment is a statement about all pixels and maps.", "anchors": ["modules/datasets/include/litiv/datasets/impl/vap-trimod2016.hpp: getRawInputArray, getRawGTArray"]}
{"id": "C234", "title": "VAP dataset: masks loaded as input", "statement": "The masks loaded as input are the ones chosen by the option, and are equal to the ground truth of the packet if they were chosen to be the ground truth.", "quantifier": "every option value, scene and image content", "why_tests_cant": "A claim about all images and combinations of options.", "anchors": ["modules/datasets/include/litiv/datasets/impl/vap-trimod2016.hpp: getRawInputArray, getRawGTArray, isLoadingInputMasks"]}
{"id": "C235", "title": "Generators of random numbers on the GPU cannot die or merge", "statement": "A TinyMT32 generator set up from any value of rand() never reaches the state in which it would draw zeros only, however many numbers are drawn; generators set up from different values never get into the same state after as many draws; the state before a draw is determined by the state after it; for given other words of the state each number is drawn for exactly one value of the last word; every generator of the array is set up once.", "quantifier": "values of rand(), numbers of draws, generator parameters and states, sizes of the array", "why_tests_cant": "There are 2^31 values of rand() and 2^127 states, and the draws go on for as long as the video does.", "anchors": ["modules/utils/src/opengl.cpp: TMT32GenParams::initTinyMT32Generators", "modules/utils/src/opengl-shaders.cpp: getShaderFunctionSource_urand_tinymt32"]}
{"id": "C236", "title": "The hash used for random numbers in shaders loses no seed", "statement": "The one-word random function of shaders maps different seeds to different numbers, so two sequences with different seeds differ at every place and a nonzero seed never becomes zero; no seed gets stuck.", "quantifier": "seeds of 32 bits, numbers of draws", "why_tests_cant": "There are 2^32 seeds and sequences are unbounded.", "anchors": ["modules/utils/src/opengl-shaders.cpp: getShaderFunctionSource_urand"]}
{"id": "C237", "title": "Line numbers in messages on shader sources are right", "statement": "The text made for a shader source which does not compile has one line for each line of the source, in order: the number of the line counted from one, with six digits or more, a colon, a space and the unchanged line, after a tabulation if asked for. The source can be told from the text, and an empty source gives an empty text.", "quantifier": "all source texts and both settings of the tabulation", "why_tests_cant": "Sources are texts of any length with any number of lines, including empty and unterminated ones.", "anchors": ["modules/utils/src/opengl.cpp: lv::gl::addLineNumbersToString"]}
{"id": "C238", "title": "Conversions between matrix types and texture formats keep their contents", "statement": "Each conversion between matrix types, internal formats, pixel formats and data types accepts exactly the supported values, and keeps the number of channels, the bytes of a channel and the kind of values; converting a matrix type to an internal format and back gives the type.", "quantifier": "all matrix types, internal formats, pixel formats and data types, given as numbers, with integral or normalized storage", "why_tests_cant": "The conversions take any number as type or format, and all of them have to agree on all values.", "anchors": ["modules/utils/include/litiv/utils/opengl.hpp: getInternalFormatFromMatType, getMatTypeFromInternalFormat, getNormalizedIntegralFormatFromInternalFormat, getIntegralFormatFromInternalFormat, isInternalFormatIntegral, getDataFormatFromChannels, getChannelsFromDataFormat, getDataTypeFromMatDepth, getMatDepthFromDataType"]}
{"id": "C239", "title": "Textures made from matrices have formats which OpenGL and GLSL accept", "statement": "The internal format and the pixel format which are chosen for a matrix match, so that its pixels can be uploaded, and the format has a name, unlike those of others, with which an image can be declared in a shader.", "quantifier": "all supported matrix types, with integral or normalized storage", "why_tests_cant": "The choice depends on type and storage, and errors only show on a machine with OpenGL.", "anchors": ["modules/utils/src/opengl-draw.cpp: GLTexture2D::GLTexture2D", "modules/utils/include/litiv/utils/opengl.hpp: getGLSLFormatNameFromInternalFormat"]}
{"id": "C240", "title": "Images copied from memory are read from where they lie", "statement": "Copying several images which lie one after the other in memory reads each row of each image from its place, with the type, rows and columns of the image, and a pixel buffer has exactly the bytes of its matrix.", "quantifier": "numbers and sizes of images, matrix types, places in memory", "why_tests_cant": "Sizes, types and counts are unbounded.", "anchors": ["modules/utils/src/opengl.cpp: lv::gl::deepCopyImage, lv::gl::deepCopyImages", "modules/utils/src/opengl-draw.cpp: GLPixelBufferObject::GLPixelBufferObject"]}
{"id": "C241", "title": "Dynamic textures and pixel buffers behave as containers", "statement": "In any sequence of permitted calls on texture arrays and pixel buffers, every call works and changes only the layer or buffer it names, and a matrix read from a layer or buffer is what was last written to it, from a matrix or from a buffer.", "quantifier": "sequences of calls on any number of textures and buffers, with or without rebinding, with or without direct access to layers", "why_tests_cant": "The effect of a call depends on bindings left by all calls before it.", "anchors": ["modules/utils/src/opengl-draw.cpp: GLDynamicTexture2DArray::updateTexture, GLDynamicTexture2DArray::fetchTexture, GLPixelBufferObject::updateBuffer, GLPixelBufferObject::fetchBuffer"]}
{"id": "C242", "title": "Lower levels of dynamic textures follow their contents", "statement": "After any sequence of calls the mipmap levels of a dynamic texture with several levels were made from what its layers hold.", "quantifier": "sequences of calls on textures and buffers", "why_tests_cant": "Whether levels are up to date depends on the whole history of writes.", "anchors": ["modules/utils/src/opengl-draw.cpp: GLDynamicTexture2DArray::updateTexture"]}
{"id": "C243", "title": "Starting a video cosegmentation on several streams", "statement": "The common start of a video cosegmentation algorithm is accepted exactly when every stream has an image stored in one piece, a region mask of the same size (or none), and at least one useful pixel that is further than the border width from each edge. After an accepted start every stream has a working mask equal to the requested one away from the borders and black near them (everything requested when no mask is given), pixel counts that match the requested and working masks, cleared last masks, and frame counters at zero, whatever the object held before. Accepted or not, the object is marked as not started and keeps its settings. Giving the working masks back to the object afterwards is accepted and changes no pixel.", "quantifier": "every object state, every number of streams, image sizes, masks and border width", "why_tests_cant": "Tests start the object on a few images; the claim ranges over all masks, sizes and earlier states", "anchors": ["modules/video/include/litiv/video/VideoCosegmentationUtils.inl.hpp: initialize_common, validateROIs, setROIs, getROIsCopy"]}
{"id": "C244", "title": "Changing the region masks of a video cosegmentation", "statement": "New region masks are accepted exactly when none is black and each is at least as large as the two borders; then the working masks are the given ones made black near the borders, and the pixel counts and sizes kept by the object describe the working masks. A refused call, or a refused start, changes neither the object nor the masks of the caller.", "quantifier": "every object state and every list of masks", "why_tests_cant": "The counts, sizes and partial updates only matter for unusual masks in some of the streams, which tests do not enumerate", "anchors": ["modules/video/include/litiv/video/VideoCosegmentationUtils.inl.hpp: setROIs, validateROIs, initialize_common"]}
{"id": "C245", "title": "Cosegmentation on lists of images", "statement": "The form of apply that takes lists needs exactly as many images as the algorithm has inputs and as many masks as it has outputs (or none); the algorithm then sees the images and masks in list order and its masks come back in the same order.", "quantifier": "every algorithm with fixed numbers of inputs and outputs, all lists of images and masks", "why_tests_cant": "Any numbers of images and masks and any algorithm", "anchors": ["modules/imgproc/include/litiv/imgproc/CosegmentationUtils.inl.hpp: IICosegmentor::apply"]}
{"id": "C246", "title": "Description of a graphical model", "statement": "Printing the description of a graphical model never fails: it gives the numbers of variables and factors, one line per order that occurs among the factors, in increasing order, with the number of factors of that order, and the smallest and largest numbers of labels of the variables (or the common number).", "quantifier": "every list of label counts and factor orders", "why_tests_cant": "A histogram kept in a map and a running minimum and maximum are right for all models only by induction over them", "anchors": ["modules/utils/include/litiv/utils/opengm.hpp: printModelInfo"]}
{"id": "C247", "title": "The full-screen rectangle shows the texture once and upright", "statement": "Rendering the full-screen rectangle covers every point of the screen and nothing else, the two triangles overlap only on a diagonal and both face the viewer, the texture is stretched linearly over the screen with its first row at the top, and in a window of the size of the texture each pixel shows the centre of the texel with the same column and row.", "quantifier": "every point of the screen, every window size and pixel, with and without the vertical flip", "why_tests_cant": "The claim is about all points and window sizes", "anchors": ["modules/utils/src/opengl-draw.cpp: GLScreenBillboard", "modules/utils/include/litiv/utils/opengl-draw.hpp: GLScreenBillboard_FLIP_TEX_Y_COORDS"]}
{"id": "C248", "title": "Scoped release of mutexes", "statement": "A thread that owns distinct mutexes and creates a scoped release on them owns none of them within the scope and all of them again after it, whatever other threads lock and unlock meanwhile. Its constructor and destructor never unlock a mutex the thread does not own nor lock one it owns, and never touch the mutexes of other threads nor the thread's other mutexes. While it waits at the end of the scope it holds none of the released mutexes, and it finishes once they are free. Giving the same mutex twice is undefined.", "quantifier": "every schedule of any number of threads and mutexes", "why_tests_cant": "The claim is about all interleavings with other threads", "anchors": ["modules/utils/include/litiv/utils/cxx.hpp: unlock_guard"]}
{"id": "C249", "title": "Change detection pushes the algorithm's masks, whatever fails", "statement": "For each batch of the change detection application, the masks pushed are those of the algorithm on the first frames, each once and in order, at the promised learning rates, all of them if nothing fails; a batch that was started is stopped exactly once wherever an exception is thrown, and does not prevent the other batches; the masks do not depend on the display, and the exit code is zero only when all batches were analysed.", "quantifier": "all batches, algorithms, regions of interest, points of failure and moments at which the user quits", "why_tests_cant": "exceptions can come from every call on every frame", "anchors": ["apps/changedet/src/main.cpp: main, Analyze"]}
{"id": "C250", "title": "Change detection runs are repeatable", "statement": "Two runs of the change detection application on the same data draw the same random numbers in every batch.", "quantifier": "all numbers of batches and workers, all schedules of the workers, all generators", "why_tests_cant": "a test sees a few schedules of the workers", "anchors": ["apps/changedet/src/main.cpp: Analyze"]}
{"id": "C251", "title": "Video registration averages are means of the frames evaluated", "statement": "The rows written by the video registration application are the frames at which a transformation was available, in order, with their errors, and the averages that it prints are the means of the errors of these rows.", "quantifier": "all videos, registration results, and moments at which the user quits", "why_tests_cant": "the result depends on where the videos end, where transformations appear and where the user quits", "anchors": ["apps/vidreg/src/main.cpp: main"]}
{"id": "C252", "title": "Recorded streams stay synchronised", "statement": "In a recording of the capture application, whatever the speed of the disk, a frame is recorded in all the streams or dropped in all of them: the packets saved under the same number in two streams come from the same grab, numbers are consecutive, frames for which all queues have room are recorded, the bytes waiting for a writer never exceed the size of its queue, and the recording only fails when a packet is larger than its whole queue.", "quantifier": "all numbers of streams, queue and packet sizes, failed grabs, and interleavings of the writers with the main thread", "why_tests_cant": "dropped frames depend on the speed of the disks and on the scheduler", "anchors": ["apps/capture/src/main.cpp: main", "modules/datasets/src/utils.cpp: DataWriter::queue_check, DataWriter::queue, DataWriter::entry"]}
{"id": "C253", "title": "Cosegmentation results are pushed once", "statement": "With delayed results, the cosegmentation application pushes the results of every frame of a batch exactly once, in order and under the index of that frame, wherever the temporal windows of the batch start and end.", "quantifier": "all batch lengths, start indices, temporal depths and placements of the temporal breaks", "why_tests_cant": "the windows depend on the annotated frames of each sequence, and lost results only show as missing output files", "anchors": ["apps/cosegm/src/main.cpp: main", "modules/imgproc/src/SegmMatcher.cpp: getOutput, resetTemporalModel", "modules/datasets/include/litiv/datasets/impl/litiv-stcharles2018.hpp: isTemporalWindowBreak"]}
{"id": "C254", "title": "Pretraining order", "statement": "With background pretraining, the cosegmentation application shows the first frames of the video to the background models the set number of times, forwards then backwards, then the whole video once from its start; it ends, and the progress it prints counts the frames of the pretraining one by one up to the announced total.", "quantifier": "all numbers of passes, pretraining lengths and video lengths", "why_tests_cant": "the index moves in two directions under three conditions; only fixed constants are compiled in", "anchors": ["apps/cosegm/src/main.cpp: main"]}
{"id": "C255", "title": "Rectangle editor of the cosegmentation application", "statement": "Whatever the sequence of clicks and keys, the editor does not fail, every image of every frame keeps at least one rectangle, the rectangle being edited exists, and the file it writes is read back as the same rectangles; a left click selects the rectangle with the closest corner within reach, and an edited rectangle gets the two points clicked while the others stay; a right click removes the selected rectangle only, clicks in the other image leave the selection alone, and the keys stay within the frames of the batch.", "quantifier": "all histories of clicks and keys, numbers of frames, rectangles and positions", "why_tests_cant": "faults need particular orders of clicks across the two images", "anchors": ["apps/cosegm/src/main.cpp: main"]}
