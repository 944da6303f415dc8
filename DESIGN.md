# Formal model of plstcharles/litiv in Lean 4 — design

## Approach

`/verif/lean/Verif/` holds an executable model of parts of litiv, written function by function from the C++
source in `/repo`, together with theorems about it. Every definition that models code carries a comment
with the file and lines it models and the simplifications made.

For each area `X` there are up to three modules:

* `Verif/Model/X.lean` — the model: small total computable functions.
* `Verif/Lemmas/X.lean` — helper lemmas (only when they are long).
* `Verif/Props/X.lean` — the specification (small, independent of the model's helpers), the property
  theorems, and beside each theorem an `example` showing that a concrete non-trivial case meets its
  hypotheses.

Conventions:

* Integers are `Nat`/`Int` unless the property is about overflow; then `BitVec w` (wrap-around) is used.
* C++ undefined behaviour (out-of-bounds access, signed overflow, use after free) is a distinct outcome
  (`Option.none`, or a dedicated constructor), never silently totalised.
* Loops become structural recursion or folds; loops with no obvious bound get a termination proof.
* Threads: every lock-protected region is one atomic step of a transition system; schedules are arbitrary
  sequences of steps.
* Floating point is replaced by exact arithmetic over the rationals or reals; this is stated at each place.
* Where the code violates a property, the negation is proved with a concrete witness, the proved remainder
  carries the suffix `_partial`, and the disagreement is listed under "Findings" below.

## Plan per property

| id | model | proof |
|----|-------|-------|
| C01 | `AutoBuffer`: static/dynamic storage, used size, as lists with garbage cells | refinement to `List` by induction over operations |
| C02 | `at` with the index comparison done in the index type | case split; negation for signed indices |
| C03 | transition system: queue, active flag, per-worker program counters | invariants over all reachable states, by induction over steps |
| C04 | transition system: count, waiting threads | conservation invariant |
| C05, C06, C07 | string functions over `List Char`; `putf` over formatted length | structural induction; negation for length 1024 |
| C08–C12 | list functions | structural induction |
| C13 | digit loop on `Int` with conversion to `int` | strong induction against `toString` width; negation for wide values |
| C14 | `BitVec 32` | bit-level lemmas |
| C15, C16, C17 | `BitVec w`, byte table | decide over the 256-entry table + induction on bytes; triangle inequality bitwise |
| C18 | `BitVec 8` → `Nat` distances | arithmetic |
| C19 | bit loop over `Nat` | induction on bits |
| C20 | list fold | induction |
| C21 | elimination loops over a field | loop invariants |
| C22, C23 | kernels as literal tables, walk loop | induction on the walk; finite table for kernels |
| C24, C25 | byte serialisation | round trip by induction |
| C26 | `BitVec` packing | bitvector algebra |
| C27 | Möbius sums over `Finset` | Möbius inversion by induction |
| C28, C29 | transition system for the precaching thread; ring buffer with byte intervals | invariants, refinement to the loader function |
| C30 | transition system for writer | invariants; negations for several workers |
| C31 | set of processed indices | induction over histories |
| C32 | zero-padded decimal rendering | injectivity, order; negation beyond the width |
| C33, C37 | rose trees | structural induction |
| C34–C36 | counters over `Nat`, metrics over rationals/reals | induction; inequalities |
| C38–C40 | `BitVec 8` lanes | bit-level lemmas, finite tables |
| C41 | images as functions on bounded coordinates | measure decrease; invariants |
| C42, C43, C46 | histograms, order statistics, integral images | induction, counting |
| C44, C45 | block scan | window reasoning |
| C47–C49 | sample models with an explicit random stream | invariant over histories |
| C50–C52 | lists, bit vectors | induction |
| C53 | table index arithmetic over rationals | floor reasoning |
| C55 | `BitVec` shifts | arithmetic on quotients |
| C56, C57 | knot lists over an ordered field | nearest-knot lemma; negation in second half-segments |
| C58, C59 | running sums over an ordered field | list induction; a median minimises absolute deviation |
| C60 | recursion on n; lists | induction |
| C61, C62 | reals and lists of errors | algebra; fold lemmas |
| C63 | per-pixel functions | case analysis, fold lemmas |
| C64, C66 | directory listings as lists, handlers as an inductive tree | list induction; the refuted part by a general negation |
| C65 | promise/future state machine | invariant over all call histories; negation |
| C67 | bytes | case analysis per pixel |
| C68 | the same transition system | the failure flag is an invariant of every later schedule |
| C69 | the transition system of C30 | counting over all schedules |
| C38, C72 | sixteen byte lanes as `Fin 16 → BitVec 8`; SSE operations lane by lane; the shader's terms as a table | bit-level equality, one lane at a time; sum of distinct powers as bitwise or |
| C39, C70 | image as header plus byte buffer with 64-bit wrap-around addresses; keypoints at rational positions | address arithmetic; induction over the pixel list; negation for fractional positions |
| C40 | masks, channel selection loop | argmax loop invariant; permutation of the pattern under mirroring |
| C71 | byte arithmetic | bounds on bit counts |
| C73 | the model of C41 | removal of a pixel with crossing number one keeps paths; induction over the scan and the rounds |
| C74 | the model of C41; published conditions as a separate specification | complete table of 256 neighbourhoods; fixed points of monotone passes |
| C75 | the model of C43/C46 | counting set pixels by four lookups |
| C76 | the model of C47 with arbitrary decisions and rates per frame and pixel | invariants over histories; index arithmetic |
| C77 | sample consensus of C47 with colour and descriptor values, refreshes as a second operation | invariants over histories of frames and refreshes |
| C78 | ROI masks as functions of row and column | case analysis on the rectangle |
| C79 | row steps and offsets as 64-bit words, shapes as lists of any length | induction on the shape against unbounded arithmetic |
| C80 | the model of C51 with rational deltas and pixel values | two-tap separable filter against bilinear interpolation |
| C81 | both conversions over rationals, rounding and saturation to 8 bits | piecewise hue profile inverted case by case; Lipschitz bound for perturbations |
| C82 | divisions, angles, palette, shuffle and lookup | colours separated by extreme channels (division) and profile (angle); palette length by a table over all sizes below 720 |
| C83 | headers (base, sizes, steps) over a memory, fresh copies as row-major lists | induction over dimensions against multi-dimensional indexing |
| C84 | the same headers, OpenCV's continuity test | continuity plus nesting implies packed strides; refutations on column views |
| C85 | lists of integers with conversions of arbitrary integer types | modular arithmetic |
| C86 | the sampling formula over rationals, borderInterpolate explicitly | termination measure of the reflection loop; convexity |
| C87 | `initialize`, the feedback and threshold computations of `apply`, caps, over a rounding function | ranges as an invariant of sessions, rounding properties proved for binary32; directions by monotonicity; failing runs exhibited |
| C88 | the pixel loop of `apply` (both channel counts), `refreshModel`, blink map, mask post-processing as an arbitrary function | loop invariant over the pixel list, history invariant over calls, matching rule unfolded against the distance specifications |
| C89 | threshold table adaptation, downscaled averages, reset logic and caps of `apply` | per-frame relation, induction over frames for the cooldown |
| C90 | `initialize` and `apply` of both PBAS variants with rounded floats; gradients as part of the input, median filter left out | loop invariant over the pixels, history invariant over frames, refinement to the frames of C76; ranges by monotonicity of rounding |
| C91 | `apply_internal_lookup`: visiting order with 64-bit wrap-around of the loop limits, tables and levels, accesses outside of buffers as failure | invariant over the visits, induction over levels, exact characterisation of the failing sizes |
| C92 | `apply_internal_threshold`: merging of levels from coarse to fine in one map, default words by byte order, local maximum tests on the linear buffer, labels, growing stack, hysteresis loop | invariants of each pass; the labelled pixels are a closed set reachable from the strong candidates; measure for the loop |
| C93 | `apply` and `apply_threshold` | monotonicity of candidates and reachability, loop over thresholds |
| C94 | `calcJointProbHist` for any number of inputs, all template options; matrices as key lists with values, absent element created (sparse) or out of bounds (dense) | a loop invariant per histogram (`Good`), then counting |
| C95 | `calcMutualInfo` over the reals with `Real.logb 2` | the score as a mean over elements of a log-ratio; Gibbs' inequality |
| C96 | `computeImageAffinity` on top of `calcMutualInfo`; iterations in any order on any threads with any stale buffers | fold invariant: each cell is written by its own iteration only |
| C97 | `computeDescriptorAffinity` with an abstract distance; both loops in any order | closed forms of both loops; mean bounds |
| C98 | `getLogPolarMask` with arbitrary or exact geometry | prefix invariant of the scan; exact arg/log computations for the witnesses |
| C99 | dense LSS: template matching, mask loop, flat output memory, normalization; rows in any order | fold = minimum; block arithmetic of the memory |
| C100 | keypoint versions and `validateROI` | same lemmas; refutation by the stale content |
| C101 | `GMM`: flat parameter array, sums, `LU`-based determinant and inverse | closed form of the loops on disjoint cells; sample covariance is positive semidefinite, noise bounds the conditioning, so `LU` succeeds |
| C102 | component and mixture densities, best component, debug assertions | Gaussian integral by change of variables with a square root of the matrix; fold invariants; refutation in dimension 8 |
| C103 | `GMMSeg`: separation of pixels into flat buffers, training, assignment, relearning | buffer invariant; reduction to C101 on the list of samples; refutation from the contract of `kmeans` |
| C104 | `Warp`: `computeTransform` at a grid point | weighted moments; the error in centred form is a sum of squares plus a constant, which gives the unique minimiser, and its absence when the divisor is zero |
| C105 | `Warp`: grid loops, delta maps, cells, clamping and sampling | loop invariants for the nodes visited and pixels written; tent-function form of bilinear sampling; interpolation of an affine map; concrete witnesses for the refutations |
| C106 | `SC`: distance and angle maps, bin search, lookup mask, distance mask, descriptor lists and maps | fold counts; uniqueness of ring and sector from sorted limits; permutation invariance of the fold over key points; mask geometry of `LSS`; concrete witnesses for the refutations |
| C107 | `SC`: the bin of a contour point under transforms of all points | the complex quotient of differences is invariant; arguments modulo a turn |
| C108 | `SC`: radial and angular limits, normalization, bin means and costs | closed forms of the loops; Euclidean norm of the scaled vector; distances of distinct polar points |
| C109 | `SC`: key points kept between calls; sharing of output data | invariant over call sequences; concrete witnesses for the refutations |
| C110 | `DASC`: `localDiff`, feedback, in-place passes, transposition, iterations | loop invariants to recurrences; positive weights along chains; composition of means; geometric sum |
| C111 | `DASC`: lookup images, five means, value, normalization | weighted covariance identities; Cauchy–Schwarz; Euclidean norm of the scaled vector |
| C112 | `DASC`: slope, offset and guided filter over abstract means | completion of squares for the penalised regression; sums of weighted means |
| C113 | `DASC`: pattern tables, border, key point selection and gathering | evaluation of the complete tables; bounds on rounding and truncation; concrete witness for the refutation |
| C114 | `Slic`: grid sizes, launch of the initialization kernel | quotient bounds; fold over threads in arbitrary order, each cell written once |
| C115 | `Slic`: launch sizes, thread positions, search over shared cells | bijection between threads and pixels; fold for the first minimum; concrete witnesses for the refutations |
| C116 | `Slic`: atomic operations in arbitrary order, update, iterations | invariant over iterations; sums over permutations; means minimize squared distance |
| C117 | `Slic`: conversion of one pixel | unfolding and cube roots as real powers; concrete witnesses |
| C118 | `SlicConn`: flood fill and merging of small regions | invariant of the flood fill (collected pixels are the region); invariant over the raster scan; first pixels have earlier neighbours |
| C119 | `SlicShow`: lists per label, means, painting | fold invariants; rounding bounds; concrete example |
| C120 | `SlicShow`: neighbour counts, mask, dilation | invariant over the raster scan that counts of later pixels are zero; case analysis of squares of four pixels |
| C121 | `Pawcs`: word lists with iterator, slots, refresh, frames | invariant: slots hold distinct addresses below the iterator; induction over histories |
| C122 | `Pawcs`: words with dates and features | predicates on words closed under all updates; sortedness of the slots after insertion |
| C123 | `Pawcs`: scan, decision, global words | loop invariant with running sums; monotonicity of rounded sums |
| C124 | `Pawcs`: scan with sorting, overwriting | the scan as a permutation of slots with the lightest word last |
| C125 | `Pawcs`: neighbour update by reference and by copy | loop invariant; concrete example |
| C126 | `Pawcs`: rank pass | invariant of one pass of adjacent swaps |
| C127 | `Pawcs`: `initialize` on kept slots | concrete example |
| C128 | `PawcsFeed`: feedback of a pixel with rounded arithmetic | invariant over histories; the failing history by three phases with dyadic bounds |
| C129 | `PawcsFeed`: frame-level automaton | invariant over calls, step relation |
| C130 | `PawcsFeed`: frame-level automaton with its log of resets | invariant over calls; locking state |
| C131 | `BgImage`: raw buffers of samples, running float sums, saturating conversion | error bound of the running sum; concrete overflow of the bound |
| C132 | `PawcsBg` over `Pawcs`: weighted float sums of the words of a pixel | invariant (a word with an occurrence) plus relative error bounds |
| C133, C134 | `Vptz` over the real numbers: rotation matrices, rays, projections | the camera frame is orthonormal, so the inverse is the transpose; spherical coordinates |
| C135 | `Vptz`: translator of ground truth | from the round trip of C133 |
| C136, C137 | `VptzCam`: settings, motions and waits with arbitrary clocks | invariant over histories; arithmetic of angles |
| C138, C139 | `VptzEval`: state machine of the evaluator, brackets of its file, results | invariants over histories; counting pixels of boxes |
| C140, C141, C142 | `SegmAssoc`: association counts and map, label initialization, one fusion move, energy and move terms of the stereo graph | invariant relating counters to the set of matched pixels; energy change summed over the columns of the other image, convexity of the price table, `Reducer.terms_value` |
| C143, C144, C145 | `SegmDual`: set-up of the duals, tables in Gray order, the function given to the minimizer, correction after a move, table of memberships as filled by the model update | one lemma on adding values to the duals of a clique for the three loops; Gray code by linearity over bits; sums over nodes exchanged with sums over cliques; a general refutation from the layers of the nodes and a concrete graph whose minimizer raises the energy |
| C146, C147 | `SegmProj`: votes of a row, `std::max_element`, the right-to-left pass that fills holes, occlusion map, post-processing; smoothing as any function (and as the real median for concrete cases) | votes are 0 or 1 because the offset of a label is injective, so the first maximum of the reversed slots is the largest label; the pass is unrolled from the right, each pixel in terms of final values to its right and initial ones to its left |
| C148, C149 | `SegmRun`: control flow of `SegmMatcher` (sliding window, precomputed features, resets, both loops of the inference); what the pieces compute is an arbitrary `Oracle` | invariant over calls for the window; simulation between two states that agree on what will be read for resets; fuel independence for the loops; concrete oracles for the refutations |
| C150, C151 | `SegmUnary`: unary costs of a pixel with the running average for labels out of view, initial winner-take-all, table of pairwise costs and its scaled view | prefix invariant over the labels; fold invariant for the first minimum; concrete pixels for the refutations, and a general theorem for flat costs |
| C152, C153 | `GLEval`: shader of the GPU evaluator as the counters each invocation increments, any order of the increments, counter buffer with paging, ground truth layers, sum of the rows | multiset of increments as sums over the grid; invariant of the paging over sessions; equality with the model of the CPU evaluation |
| C154-C156 | `GLScan`: work group as invocations with registers and lists of atomic memory operations, any interleaving between barriers; up- and down-sweep, block merge on a row, tiled transpose | general lemma: invocations with disjoint footprints do not see each other; invariants of the sweeps by divisibility of the positions by powers of two; fold invariants for rows and tiles |
| C157-C159 | `GLPreload`: quadrants, tickets drawn with atomic increments, copies to the shared window under any schedule; median blur with and without shared memory; post-processing stage as load and store events of its work groups; neighbour function | ticket invariant (each drawn ticket is copied or held), pinwheel cover of the border, progress measure for termination; counting bijection for the majority; concrete orders for the refutations |
| C160-C165 | `GLLobster`: buffer layout on both sides, `refreshModel`, background images; the main shader as a program of word loads and stores per invocation, dispatches as arbitrary interleavings, sessions as sequences of dispatches | offset arithmetic; establish-per-sample folds; exactness of float sums; rely and guarantee over interleavings; counting for the early exit; concrete frames for the refutations |
| C166-C168 | `GLPipe`: layers and buffers of `GLImageProcAlgo` for arbitrary shaders with a state, any layer count and buffer options; masks; the data consumer with its one-packet delay. Invariant over calls, refinement to the list of results. |
| C169 | `TextIO`: the character stream written and parsed, `%g` formatting with six digits and half-even ties, decimal parsing rounded to double. Round trip by induction over fields and elements; error bound of the decimal conversion. |
| C170-C173 | `Display`: tile grid, size limit in `float` arithmetic, mouse events, albums, keys, value conversion as a state machine. Pixel-wise composition lemmas by induction over rows and columns, invariants over event histories, rounding bounds. |
| C174-C178 | `Loader`: packet conversion, caches of packets and unpacked arrays, parsing of image directories, video reader positions. Pixel-wise correspondence, invariants over request histories, loop invariants of the parser, refinement to the disk contents. |
| C179 | `KofN`: recursive splitting and sequential sampling with random numbers as streams. Strong induction; reachability by building the streams. |
| C180-C182 | `Bsds`: edge map evaluation: windows, graph building, use of the matching, shared thresholds. Counting by finite sets, edge counts of the graph, loop invariant over thresholds; refutations on concrete masks. |
| C183-C185 | `BsdsScore`: scores of the edge map evaluation in exact arithmetic. Loop invariants for the best score and the sums; case analysis of the area computation using the model of `interp1`. |
| C186 | `Report`: tree of data handlers, files written and their rows. Structural induction, case analysis of paths; refutation for a directory named like the dataset. |
| C187 | `Cuda`, `CudaAff`: threads as lists of atomic actions between barriers, schedule arbitrary; kernels, launch sizes and upload cache of `computeDescriptorAffinity`. Disjoint footprints per section, induction over the tree of additions, equality with the CPU model of C97; refutations for sizes that are not powers of two, single regions and several host threads. |
| C188 | `CudaSC`: the shape context kernel as sections of atomic actions. Commuting atomic additions counted by an invariant over the schedule, strided loops summed over threads, lockstep additions by induction, equality with the CPU model of C106; refutations by running threads one after the other. |
| C189, C190 | `DirList`: directories as lists of entries, listings as filter and sort. Uniqueness of sorted permutations; lexicographic order of padded numbers by induction on the width. |
| C191–C193 | `DirList`: the parsers of CDnet, Wallflower and PETS2001 on a file system. Searching a text behind a directory path (the text has no slash), decoding of padded numbers, induction over the list of files; concrete refutations. |
| C194–C197 | `Subset`: the subset file as lines, sets as sorted lists characterised by membership, windows as a filter of the frame range; ground truth tables by induction over the listing, searches of five-digit numbers in paths by splitting at non-digits; witnesses for the cases the code gets wrong. |
| C198–C200 | `EvalRun`: work batch as counter, metrics and list of saved outputs, with a log of calls and results; one invariant over histories parametrised by the evaluator, relating the metrics to the outputs accepted since the last clearing call; stream loop by induction; witnesses for failing and repeated pushes. |
| C201–C203 | `Bilodeau`: listings as lists of paths of two kinds, names by splitting paths at the last slash and dot; the record file read by a stream with end and failure bits, by induction over the records; table of points characterised by look-ups; maps as functions of the pixel; witnesses for truncated files and scale factors. |
| C204–C206 | `Corresp`: maps as images of the `Shift` area, the loop over point pairs by induction with the last pair per pixel as invariant; the shift from C51; a witness for ranges where the offset moves the LWIR map the wrong way. |
| C207–C208 | `Files`: a file as bytes and permissions, the writes as a list of sizes; crash points as a prefix of the writes and of one write; directories with the state seen by each call; witnesses for unreadable files and concurrent creation. |
| C209–C210 | `OutDir`: a file system as a function of resolved paths, other processes acting before each call; the loop over slashes by induction with all directories made so far as invariant; frame and tree properties; witnesses where a path is returned without a directory. |
| C211 | `DispMask`: levels, normalization and two dilations as functions of the error map; the dilations by a lemma on windows, the scale when some error is 0; a witness with the maximal error everywhere. |
| C212–C213 | `Flow`: per-pixel differences on top of sub-pixel sampling (C86), and remapping by offsets with nearest neighbours; whole-pixel flows by rewriting, fractional ones by C86; a witness for coordinates below 0. |
| C214–C216 | `ResegmGraph`: the four loops as a fold over positions, shown to enumerate a range, so that places and numbers are inverse; invariants over the node loops for pairwise and temporal terms; counting for the buffers. |
| C217–C218 | `ResegmCost`: costs and temporal links of the segmentation graph | induction over the layers for the path along the flows; rounding and clamping give the closest pixel; binary numbers for the cells of temporal tables |
| C219–C220 | `RootSift`: descriptor normalization and sparseness over the reals | monotonicity of the root; sums of squares; norm inequalities with their cases of equality |
| C221 | `ShapeDist`: shape distance features | the fold of minima is the distance to the nearest pixel; monotonicity of the exponential |
| C222, C223 | `DepthMap`: depth images and masks remapped to the RGB camera | rounding bounds; entries past the last half pixel refute the bounds, a mirrored mask refutes C223 |
| C224, C225 | `CudaToggle`: initialization and toggle of CUDA algorithms | invariant over all sequences of calls and failures; two devices refute C225 |
| C226, C227, C228 | `Canny`: Canny detector and its confidence maps | counts of thresholds by induction; steps of rescaling are larger than one, so rounding keeps the order |
| C229, C230 | `MatType`: type codes of matrices | codes split in depth, channels and higher bits by integer arithmetic; then cases on the data type |
| C231 | `LutText`: source text of the threshold table | a reader of array constructors; induction over entries and digits |
| C232, C233, C234 | `VapLoad`: reading packets of the VAP dataset | source of each pixel followed through remapping, shift and rotation; cases on options and stream names |
| C235, C236 | `TinyMT`: GPU generators of random numbers, as maps of 32-bit words | injectivity of steps by induction over bits; the initial state by solving the initialization backwards from zero |
| C237 | `LineNum`: line numbers of shader sources | induction over characters, lines by an independent splitting |
| C238, C239, C240 | `GLFormat`: conversions of texture formats, copies of images from memory | against tables after the OpenGL and OpenCV documentation; cases over all numbers; arithmetic for places in memory |
| C241, C242 | `GLTex`: texture arrays and pixel buffers over the bindings of OpenGL | refinement to containers by induction over calls; counterexamples for default arguments |
| C243, C244, C245 | `Coseg`: start, region masks and list form of the cosegmentation bases | functional model of the loops that keeps the object left behind by a throw; exact acceptance conditions by induction over the streams; witnesses for the stale counts and partial updates |
| C246 | `GMInfo`: description of a graphical model | induction over the factors: the map stays sorted and holds the counts; witness for the empty model |
| C247 | `Billboard`: full-screen rectangle | barycentric weights over the rationals, linear arithmetic |
| C248 | `UnlockGuard`: scoped release of mutexes | transition system of threads and mutexes; invariant of the thread with the guard, preserved by its own steps and by those of all others |
| C249 | `ChangeDet`: the loop over the frames of a batch with a failure at any call, the handlers, and `main` | induction over the frames, prefix of the masks of the algorithm, case analysis of the handlers; witnesses for the display and the exit code |
| C250 | `ChangeDet`: the shared generator under a schedule of workers | induction over the batches of one worker; two schedules as witness |
| C251 | `VidReg`: the evaluation loop with any registration results, ends of the videos and quits | induction over the frames to a closed form; witnesses for the averages |
| C252 | `Capture`: the recording loop with its writers as a transition system, one writer thread per stream at any speed | invariant over all histories: every stream got a prefix of one list of grabs |
| C253 | `CosegmPush`: the loop with its resets, temporal layers and delayed pushes, over any placement of the breaks | invariant over the frames: what was pushed is an initial part of the batch; the full statement is refuted for videos loaded in full |
| C254 | `Pretrain`: the next index and the printed progress as functions of the loop variables | induction over the passes and over the frames of a pass; refuted for short videos |
| C255 | `RectEdit`: the mouse callback and the keys as a state machine, the file as named entries | invariant over all histories; round trip of the file; the assertion is refuted by three clicks |
## What is modelled

| Lean modules (`lean/Verif/`) | code |
|---|---|
| `Seq` | `cxx.hpp`/`cxx.cpp`/`platform.cpp` string, vector and path helpers |
| `WorkerPool` | `cxx.hpp:1053-1099` |
| `Semaphore` | `cxx.hpp:987-1046` |
| `AutoBuffer` | `cxx.hpp:722-817, 1101-1375` |
| `Bits` | `math.hpp:37-56, 198-371, 473-493, 626-745, 973-992` |
| `MathSeq` | `math.hpp:810-843, 893-963` |
| `LU` | `math.hpp:994-1129` |
| `Sampling` | `opencv.hpp:857-966` |
| `Metrics` | `datasets/src/metrics.cpp:1-395`, `datasets/include/litiv/datasets/metrics.hpp` (counters, metrics, calculators) |
| `Groups` | `datasets/src/utils.cpp:104-117, 184-296, 1644-1652`, `metrics.hpp:409-435`, `litiv/datasets.hpp:165-174` |
| `Packets` | `datasets/src/utils.cpp:36-60, 1140-1146, 1295-1318, 1456-1600`, `litiv/datasets.hpp:93-118` |
| `Precacher` | `datasets/src/utils.cpp:302-530` (critical sections as atomic actions; time-outs become free choice of schedule) |
| `Writer` | `datasets/src/utils.cpp:1324-1455` (critical sections as atomic actions) |
| `LBSP` | `features2d/include/litiv/features2d/LBSP.hpp`, `features2d/src/LBSP.cpp` (all but constructors/getters, masks of `detectAndCompute` and batch overloads), `utils/opencv.hpp:1103-1116`; relative thresholds are an arbitrary function of the reference value |
| `Thinning` | `imgproc/src/imgproc.cpp:25-152` |
| `Filters` | `imgproc/src/imgproc.cpp:154-359, 610-698` (single channel, `CV_32S`; NEON path lane by lane, `cv::integral` by its documented result; `cv::medianBlur` not modelled) |
| `Maxima` | `imgproc/include/litiv/imgproc.hpp:121-208` (`cv::minMaxLoc` by its documented result, zero and (-1,-1) for an empty selection) |
| `Consensus` | `video/src/BackgroundSubtractorViBe.cpp:22-191` (all but `getBackgroundImage`); sample handling of `video/src/BackgroundSubtractorPBAS.cpp` (its decisions and rates are arbitrary); `rand()` is an arbitrary stream |
| `BgUtils` | `video/src/BackgroundSubtractionUtils.cpp:20-155` (`cv::dilate` and `cv::countNonZero` by their documented results); `features2d/src/LSS.cpp:179-186`, `DASC.cpp:227-234`, `MI.cpp:156-162` |
| `Lobster` | `video/src/BackgroundSubtractorLOBSTER.cpp:406-597` (non-parallel; the median filter is an arbitrary function) |
| `MatIO` | `utils/src/opencv.cpp:440-442, 480-533, 573-627` (binary and LZ4 archives; the LZ4 library by its contract), `utils/src/opencv.cpp:630-704`, `utils/opencv.hpp:54-57, 194-300, 319-556` (as used there) |
| `Simd` | `utils/simd.hpp:52-150` (SSE intrinsics by their documented lane semantics; the 256/512-bit overloads are not modelled), `utils/opencv.hpp:1216-1308` (per row; colour conversion, split and merge by OpenCV are outside), `utils/opencv.hpp:1459-1478` |
| `Reducer` | `utils/opengm.hpp:313-378` (energies in any ring, no rounding) |
| `Lut` | `utils/cxx.hpp:820-949` (floating point by rounding functions; `double` rounding without overflow and subnormal numbers) |
| `Shift` | `utils/src/opencv.cpp:117-170, 753-827` (OpenCV primitives by contract; exact arithmetic, one channel) |
| `Color` | `utils/opencv.hpp:1119-1126, 1165-1213, 1317-1362` (exact arithmetic; random angles as a stream, shuffle by contract) |
| `Views` | `utils/opencv.hpp:605-636, 699-736, 814-836, 1127-1162` (cv::Mat members by contract) |
| `MatSize` | `utils/opencv.hpp:317-553` (string conversions and scaling not modelled) |
| `SubPix` | `utils/opencv.hpp:638-697` (exact arithmetic) |
| `IEEE` | rounding of `float` operations to nearest, ties to even (24-bit significand; overflow, subnormal numbers and infinities not modelled) |
| `SubSense` | `video/src/BackgroundSubtractorSuBSENSE.cpp:34-612` (median and morphology of the final mask as an arbitrary function; `cv::resize` as an arbitrary input), `video/src/BackgroundSubtractorLBSP.cpp:24-38` |
| `Pbas` | `video/src/BackgroundSubtractorPBAS.cpp:22-33,56-222,270-450` (default compile-time settings; gradient images are inputs; `sqrt` by contract) |
| `EdgeLBSP` | `imgproc/src/EdgeDetectorLBSP.cpp:40-414` (default compile-time settings; no smoothing, which is off, and no output normalization) |
| `MI` | `features2d/include/litiv/features2d.hpp:48-200`, `utils/include/litiv/utils/opencv.hpp:736-811` (exact probabilities and logarithms) |
| `Affinity` | `imgproc/src/imgproc.cpp:361-549` (CPU version; exact distances; iterations of the OpenMP loops are atomic and in any order) |
| `LSS` | `utils/src/opencv.cpp:33-99`, `features2d/src/LSS.cpp:30-51,175-186,213-338`, `features2d/include/litiv/features2d/LSS.hpp:99-103` (exact arithmetic; the blurred image is an input; `matchTemplate` and `runByImageBorder` by contract; static noise, the compiled setting) |
| `GMM` | `utils/include/litiv/utils/math.hpp:1148-1365` (exact real arithmetic; `std::exp`, `std::sqrt`, `std::pow` are the real functions; `LU` as in `LU`; accesses in bounds by `learn_defined`) |
| `GMMSeg` | `imgproc/include/litiv/imgproc.hpp:210-310` (`cv::kmeans` by contract; continuous images of matching sizes, as asserted) |
| `Warp` | `imgproc/src/imwarp.cpp:37-40,52-284`, `imgproc/include/litiv/imgproc/imwarp.hpp:22-65` (exact real arithmetic; `USE_RIGID_PRESCALE 0` and `DIST_EXP_ALPHA 1.0`, the compiled settings; NaN is `none`, and reading an image at NaN is undefined) |
| `SC` | `features2d/src/SC.cpp:24-131,212-309,325-624` (CPU code; exact real arithmetic; `cv::findContours`, the structuring element and the mask filter of OpenCV are inputs; log-polar masks as in `LSS`) |
| `DASC` | `features2d/src/DASC.cpp:20-55,179-213,261-458`, `features2d/include/litiv/features2d.hpp:29-46` (exact real arithmetic; conversion, gray levels and Gaussian filter of the input, `cv::blur`, `cv::resize`, key point filters by contract) |
| `Slic` | `imgproc/src/SLIC.cpp:52-54,73-88,139-190`, `imgproc/cuda/SLIC.cu:65-236` (exact real arithmetic; launches as sets of threads executed in an arbitrary order; allocations succeed) |
| `SlicConn` | `imgproc/src/SLIC.cpp:192-245` (labels are integers; the flood fill with a bound on iterations that is proved sufficient) |
| `SlicShow` | `imgproc/src/SLIC.cpp:247-318` (exact sums and means; `cv::morphologyEx` by contract; images with three channels) |
| `Pawcs` | `video/src/BackgroundSubtractorPAWCS.cpp:103-427,521-558,606-1297,1305-1340` (dictionaries; descriptors, thresholds and feedback as arbitrary functions; floats rounded by any function, except two products that are exact; `rand` as an arbitrary stream; no counter overflow; without mask post-processing) |
| `PawcsFeed` | `video/src/BackgroundSubtractorPAWCS.cpp:470-493,568-572,640-664,692-703,734-742,772-777,892-905,1460-1461,1478-1515,1524-1557` (feedback of one pixel with any observations, floats rounded by any function; frame-level analysis for any ratios; background image) |
| `BgImage` | `video/src/BackgroundSubtractorViBe.cpp:33-49`, `BackgroundSubtractorPBAS.cpp:38-54`, `BackgroundSubtractorLOBSTER.cpp:583-622`, `BackgroundSubtractorSuBSENSE.cpp:614-651` (raw buffers with sizes; IEEE single precision; `convertTo` as rounding to nearest even and clamping) |
| `PawcsBg` | `video/src/BackgroundSubtractorPAWCS.cpp:1524-1598` (one channel at a time) |
| `Vptz` | `vptz/src/virtualptz.cpp:298-389,782-928` (real numbers instead of `double`; conversions to `int` undefined out of range) |
| `VptzCam` | `vptz/src/virtualptz.cpp:78-173,234-296` (real numbers; clock readings as inputs; without video decoding and OpenGL) |
| `VptzEval` | `vptz/src/virtualptz.cpp:390-780` (camera reduced to its position; ground truth seen as an input; file reduced to its brackets) |
| `SegmAssoc` | `imgproc/src/SegmMatcher.cpp:706-739,886-982,1029,1070-1095,1205-1244,1407-1461,2607-2753,3212-3251,3625-3644` (step 1, FGBZ; unary and pairwise costs as parameters; minimizer by contract; costs unbounded) |
| `SegmDual` | `imgproc/src/SegmMatcher.cpp:1957-2122 (clique numbering),2772-3067`, `3rdparty/sospd/.../submodular-functions.hpp:274-297` (costs unbounded; pixel maps left out; minimizer as an oracle; optical flow paths as parameters) |
| `SegmProj` | `imgproc/src/SegmMatcher.cpp:886-896 (labels),1464-1549,1591-1636,2621-2635,3459-3465` (per row; labels as naturals; median filter as any function, or as the middle of the sorted window) |
| `SegmRun` | `imgproc/src/SegmMatcher.cpp:741-832,2325-2345 (previous frame),3067-3470` (control flow; computations as oracles; cameras kept together; one image type; no logs, displays, energies) |
| `SegmUnary` | `imgproc/src/SegmMatcher.cpp:1157-1177,1307-1358,1407-1446,2608-2635`, `utils/opengm.hpp:137-168` (costs as naturals; descriptors enter as truncated products; float rounding of the weights as any monotone function) |
| `GLEval` | `utils/src/opengl-imgproc.cpp:400-403,546-782`, `datasets/src/eval.cpp:284-343,381-395` (OpenGL by its contract; no debug image, display, timers, input pixel buffers; exact ceil of the group count) |
| `GLScan` | `utils/src/opengl-shaders.cpp:578-677` (sequentially consistent shared memory; one pixel component; work groups of a row or image one after the other, in any order) |
| `GLPreload` | `utils/src/opengl-shaders.cpp:679-797`, `video/src/BackgroundSubtractorLOBSTER.cpp:279-305` (sequentially consistent shared memory; float quotient and modulo right in the columns and tickets which matter; work groups load and store as a whole in the post-processing) |
| `GLLobster` | `video/src/BackgroundSubtractorLOBSTER.cpp:45-97,112-116,174-259,321-391` (sequentially consistent word accesses; random numbers as streams, one per invocation; the preloaded window by C157; no three-channel images, no infinite learning rate) |
| `GLPipe` | `utils/src/opengl-imgproc.cpp:40-52,104-398,592-782`, `video/src/BackgroundSubtractionUtils.cpp:165-201`, `imgproc/src/EdgeDetectionUtils.cpp:25-48`, `datasets/include/litiv/datasets/utils.hpp:1097-1201` (OpenGL by its contract; image sizes and types, debug images and display left out) |
| `TextIO` | `utils/src/opencv.cpp:450-478,544-572` (C++ stream formatting and parsing by the standard: `%g` with six digits, `strtod` correctly rounded; unbounded exponents; continuous matrices; files as lists of characters) |
| `Display` | `utils/src/opencv.cpp:206-434`, `apps/handannot/src/main.cpp:193-195,293`, `video/src/BackgroundSubtractorSuBSENSE.cpp:487-488`, `BackgroundSubtractorPAWCS.cpp:590-591` (image conversion, resizing and drawing as a given function; `float` arithmetic of the sizes; windows, locking and text hints left out) |
| `Loader` | `datasets/src/utils.cpp:314-355` (contract), `564-577,597-788,874-969,1117-1130,1151-1203` (`cv::imread`, `cv::VideoCapture`, `cv::cvtColor` by what they return; images of at most two dimensions; exact scale factors; ROI and load size functions left out) |
| `KofN` | `3rdparty/bsds500/src/kofn.cpp` (random draws as streams; the test on `k log k` in exact arithmetic) |
| `Bsds` | `datasets/src/impl/BSDS500.cpp:69-429`, `BSDS500.hpp:158-164` (exact squared distances; the assignment solver `3rdparty/bsds500/src/csa.cpp` by contract: a perfect matching of a solvable graph; thinning by its own model; no integer overflow) |
| `BsdsScore` | `datasets/src/impl/BSDS500.cpp:495-596`, `metrics.hpp:213-231` (exact rationals; sorting by its contract; `interp1` by its own model) |
| `Report` | `datasets/src/eval.cpp:21-276`, `utils.cpp:84-90,170-178,207-217,276-296`, `litiv/datasets.hpp:165-174` (rows as indentation, name and metrics; headers, number formatting, console output not modelled; `..` resolved; BSDS500 reports left out) |
| `Cuda`, `CudaAff` | `imgproc/cuda/affinity.cu`, `imgproc/src/imgproc.cpp:551-606`, `utils/cuda.hpp:50-54` (atomic actions of threads between barriers in an arbitrary order; exact real numbers; warps of 32 threads; launch limit of 1024 threads; texture and allocation failures left out) |
| `CudaSC` | `features2d/cuda/SC.cu`, `features2d/src/SC.cpp:155-197,532-548` (thread blocks as in `Cuda`; `atomicAdd` as one action, shuffles as one step of the warp; exact real numbers; warps of 32 threads; texture reads as mask cells; absolute distances without rotation invariance only) |
| `DirList` | `utils/src/platform.cpp:61-169` (POSIX branch), `datasets/impl/CDnet.hpp:68-113`, `Wallflower.hpp:60-101`, `PETS2001.hpp:60-95`, `datasets/src/utils.cpp:895-923` (file system as a function from paths to entries; region images, video decoding and image sizes left out) |
| `Subset` | `datasets/impl/vap-trimod2016.hpp:235-256,307-342,418-584` and `litiv-stcharles2018.hpp:288-308,475-604,639-665,842-979,1199-1210,1303-1316` (listings as lists of paths; without depth stream, input masks, calibration data and image checks; scale factors as rational numbers) |
| `EvalRun` | `datasets/eval.hpp:96-191`, `datasets/utils.hpp:878-941`, `datasets.hpp:93-118` (with the counter of `Packets` and the counters of `Metrics`; ground truth and regions as functions of the packet index; saving as an event; disparity evaluator and GLSL evaluators left out) |
| `Bilodeau` | `datasets/impl/litiv-bilodeau2014.hpp:243-530,583-648` (listings as lists of paths, a file exists when it is listed; disparities evaluated from points; images, regions of interest and image sizes left out; scale factors as rational numbers; the numbers of the range file given) |
| `Corresp` | `datasets/impl/litiv-stcharles2018.hpp:414-420,1056-1059,1146-1149,1174-1216,1292-1299` (files as lists of points; exact numbers; no resizing, unwarping or depth stream) |
| `Files` | `utils/src/platform.cpp:194-228` (POSIX branches; files as bytes and permissions, writes succeed) |
| `OutDir` | `datasets/src/utils.cpp:155-178,292,1685-1700`, `utils/src/platform.cpp:194-205` (POSIX; no symbolic links) |
| `DispMask` | `datasets/src/metrics.cpp:171-229` (sizes and types valid; exact numbers; OpenCV functions by their documentation) |
| `Flow` | `imgproc/src/imgproc.cpp:700-740` (exact numbers; `cv::remap` with `INTER_NEAREST` only, `cv::GaussianBlur` as any function) |
| `ResegmGraph` | `imgproc/src/SegmMatcher.cpp:993-1134 (segmentation graph),1637-1767` (unbounded indices; function values, graph library and memory limit left out) |
| `ResegmCost` | `imgproc/src/SegmMatcher.cpp:1918-2160,2621-2635` (exact rationals; colour models, distances, gradients, flows and debug images left out) |
| `RootSift` | `utils/include/litiv/utils/math.hpp:845-890` (exact reals) |
| `ShapeDist` | `imgproc/src/SegmMatcher.cpp:2521-2541` (exact reals; `cv::distanceTransform` as the smallest distance) |
| `DepthMap` | `datasets/impl/litiv-stcharles2018.hpp:1018,1103-1111,1272-1279` (map entries as rationals; no undistortion, rectification or resizing) |
| `CudaToggle` | `utils/include/litiv/utils/algo.hpp:82-128`, `utils/src/cuda.cpp:48-76` (CUDA runtime by contract, one host thread, no reset) |
| `Canny` | `imgproc/src/EdgeDetectorCanny.cpp:19-58` (exact arithmetic; `cv::Canny` and `cv::GaussianBlur` as arbitrary functions, `cv::normalize` by its formula) |
| `MatType` | `utils/include/litiv/utils/opencv.hpp:54-63,91-124,158-191,194-307` (OpenCV's macros by their definitions; unbounded integers) |
| `LutText` | `video/src/BackgroundSubtractorLBSP.cpp:69-88` |
| `VapLoad` | `datasets/impl/vap-trimod2016.hpp:75-110,157-180,347-355,647-815` (files of one packet given; pixels as numbers; `cv::resize` and `cv::remap` with arbitrary pixels and the sizes of their contracts; no regions of interest) |
| `TinyMT` | `utils/src/opengl.cpp:200-236`, `utils/src/opengl-shaders.cpp:801-814,849-872`, `utils/opengl.hpp:430-437` (values of `rand()` given; the product of the three sizes does not wrap) |
| `LineNum` | `utils/src/opengl.cpp:183-198` |
| `GLFormat` | `utils/opengl.hpp:127-405`, `utils/src/opengl-draw.cpp:28-34,113-122`, `utils/src/opengl.cpp:157-162,172-181` (sizes without overflow; calls of OpenGL themselves are not modelled) |
| `GLTex` | `utils/src/opengl-draw.cpp:28-74,271-335` (images as lists of rows; of OpenGL only bindings and contents; assertions of debug builds fail) |
| `Coseg` | `VideoCosegmentationUtils.inl.hpp:23-122`, `CosegmentationUtils.inl.hpp:23-41` (two-dimensional images; the warning about grayscale images is left out; the algorithm behind `apply` is a function; aliasing of mask buffers is left out) |
| `GMInfo` | `utils/opengm.hpp:93-109` (text in structured form) |
| `Billboard` | `utils/src/opengl-draw.cpp:362-387` (rational coordinates, rasterisation of the OpenGL standard, normals and colours left out) |
| `UnlockGuard` | `utils/cxx.hpp:951-985` (`std::lock` as attempts in order with back-off; nested guards left out; undefined behaviour of `std::mutex` as failure) |
| `ChangeDet` | `apps/changedet/src/main.cpp:135-166, 346-429` (without a GPU; algorithm, dataset and failures given by an environment; console output left out) |
| `VidReg` | `apps/vidreg/src/main.cpp:126-231` (any registration algorithm, as it is not in the repository; rational errors; pictures left out) |
| `Capture` | `apps/capture/src/main.cpp:65-95, 458-637` with `datasets/src/utils.cpp:1337-1391, 1429-1455` (sensors, display and disk errors left out) |
| `CosegmPush` | `apps/cosegm/src/main.cpp:185,204,447,633-640,664,706-782`, `imgproc/src/SegmMatcher.cpp:804-832` (results named by their frame; layers move by one with each frame; the key that ends a batch, images and files left out) |
| `Pretrain` | `apps/cosegm/src/main.cpp:228-231, 447, 515-531` (models, masks and the key that ends a batch left out; unbounded indices) |
| `RectEdit` | `apps/cosegm/src/main.cpp:245-267, 283-299, 304-408, 564-577` (any points and rectangles, distances as naturals; drawings and segmentations left out) |

Not modelled: OpenGL/GLSL and CUDA paths (except the kernels of SLIC, of the affinity maps and of shape contexts, and the shaders listed above), file system and process functions, video/image decoding, the other dataset-specific
parsers, the assignment solver of the edge benchmark (`csa.cpp`), command-line applications, rounding of floating-point arithmetic (except in `IEEE`, `Lut`, `SubSense`, `Pbas`, `Pawcs`, `BgImage` and `PawcsBg`; `Vptz` and its companions use real numbers), weak memory effects of unsynchronised reads.

## Trusted base

* Lean 4.33.0's kernel, and at most the axioms `propext`, `Classical.choice`, `Quot.sound`. No theorem uses another
  axiom, `sorry`, `native_decide` or `bv_decide`. Finite tables (256-entry popcount table, 16-entry offset tables,
  kernels) are checked with `decide`/`decide +kernel`, which the kernel evaluates.
* The reading of the C++ source: no code is extracted or executed, the model was written by hand from the text.
* Assumed behaviour of external calls (standard library, OpenCV, condition variables), recorded at the definitions
  that use them.

* `seeded/LOG.jsonl` records edits of the model. `theorems_failed` lists claimed theorems whose proof, or a lemma it
  uses, no longer compiles after the edit. That does not by itself show that the statement became false of the edited
  program: a proof can break while its statement stays true. Entries marked harmless, equivalent or `none` in
  `claim_broken` are known cases of this kind; the others were not each checked for it.

## Findings

Places where the code does not have the property one would expect. Each is proved on the model by the theorem named.

* `putf` loses the last character of texts of exactly 1024 characters (`Litiv.Seq.putf_loses_last_char`).
* `cumulativeSum` accumulates in the element type and wraps (`Litiv.Seq.cumulativeSum_wraps`).
* `digit_count` is wrong for values wider than `int` and undefined for the smallest `int`
  (`Litiv.Seq.digitCount_wrong_wide`, `digitCount_undefined`).
* `unique_indices` does not necessarily return first occurrences (`Litiv.Seq.uniqueIndices_not_first_occurrence`).
* `WorkerPool::queueTask` tests the active flag outside the lock: a call that overlaps destruction can be accepted and
  never run (`Litiv.WorkerPool.overlapping_destruction_loses_task`).
* `AutoBuffer::at` accepts negative indices (`Litiv.AutoBuffer.atSigned_negative_undefined`).
* Moving an `AutoBuffer` to one of the same type uses the compiler-generated member-wise move and aliases storage
  (`Litiv.AutoBuffer.implicitMove_aliases`, `implicitMove_dangling_source`).
* `AutoBuffer::push_back` of an element of the same buffer reads freed memory when the heap block grows
  (`Litiv.AutoBuffer.pushBackRef_use_after_free`); its debug assertion is too strong for a static capacity of one
  (`pushBack_assertion_fails`).
* `ispow2(0)` is true (`Litiv.Bits.ispow2_accepts_zero`).
* Array `popcount`/`hdist`/`L1dist` accumulate in the narrow default type and wrap (`popcountArr_wraps`,
  `l1distArr_wraps`); `L2sqrdist`/`L2dist` of 8-bit arrays wrap at two channels (`l2sqrdistArr8_wraps`);
  `L2sqrdist` of 16-bit values overflows `int` (`l2sqrdist16_undefined`).
* `expand_bits` on 64-bit types shifts a 32-bit integer out of range (`expandBits_undefined_64`); `extend_bits` does not
  map the largest value to the largest when more than doubling (`extendBits_not_max`).
* `interp1` uses the slope of the segment to the right of the nearest knot, so it extrapolates the wrong segment in the
  second half of each interval (`Litiv.MathSeq.interp1_second_half`).
* `determinant` returns 0 and `invert` throws for invertible 4x4 and larger matrices that meet a pivot smaller than the
  epsilon (`Litiv.LU.determinant_small_pivot`); sizes 1 to 3 use closed formulas without this cut-off. With an integer
  element type the elimination uses the truncating quotient `-1/A_ii` (read from the code, not modelled).
* MCC multiplies the counters `FP*FN` in 64 bits before converting: the product wraps for counters that are far from
  overflowing and the coefficient can have the wrong sign (`Litiv.Metrics.mcc_wrong_sign`). The sums of the other metrics
  wrap only beyond 2^64 pixels (`recall_wraps`).
* Arrays of counters: accumulating an array without streams after one with streams violates the assertion, in the
  other order it does not (`Litiv.Metrics.arr_order_matters`).
* metrics.cpp:24 checks the continuity of the ground truth twice and never that of the region of interest.
* `IDataCounter::resetOutputCount` sets the promise which `stopProcessing` has already satisfied: after the first
  session `startProcessing` and `resetMetrics` throw `std::future_error` for ever (`Litiv.Packets.restart_fails`).
* `printDataStructure` asserts that a bare group has one batch, but a group directory that matches a skip token is bare
  and empty; since `parseData` prints the structure, creating such a dataset throws
  (`Litiv.Groups.create_skipped_group`).
* Default packet names switch from 6 to 9 digits at 10^7 packets instead of 10^6, so that names do not sort in packet
  order between (`Litiv.Packets.names_unsorted`). Outputs of image datasets are named after the image without
  extension; `a.png` and `a.jpg` overwrite each other's output (`image_names_collide`).
* `DataPrecacher::getPacket` returns a header over the worker's local buffer. The worker's buffer dies on
  `stopAsyncPrecaching` and on any loader failure, but the last packet is still handed out for a repeated request
  (`Litiv.Precacher.transparent_refuted`), and a failure while precaching another packet frees the packet the user
  currently holds (`held_freed_refuted`).
* A loader failure is stored and never cleared: all later `startAsyncPrecaching`/`stopAsyncPrecaching` calls rethrow it
  (`failure_reported`), so precaching can never be restarted, and the destructor, which calls `stopAsyncPrecaching`,
  terminates the program. A failure for packet `j` that was only precached also fails the request of another packet.
* Every request to the precaching thread waits for at least one time-out: the wait predicate compares a local copy of the
  answer index which is only refreshed after a time-out (not a functional error, so not modelled).
* `DataWriter` with two or more workers: all workers take `m_mQueue.begin()` without marking it, so that two of them
  write the same packet, and the second erases an invalid iterator (`Litiv.Writer.two_workers_refuted`).
* `DataWriter::queue` on an index whose previous packet is being written assigns the `cv::Mat` which the callback reads
  without the lock (`requeue_refuted`), a data race with a single worker and a single caller.
* A `queue` call overlapping `stopAsyncWriting` is accepted and lost (`concurrent_stop_refuted`); zero workers are accepted
  and write nothing (`no_workers_refuted`).
* `stopAsyncWriting` rethrows one failure per call. After two failed writes, the destructor throws (and terminates the
  program) even though the user stopped the writer and handled the exception (`failures_reported` gives the count).
* `LBSP::validateKeyPoints` (and `compute`/`compute2`) rounds keypoint positions when filtering but truncates them when
  describing: a keypoint at (1.75, 1.75) is kept and then described at (1, 1), reading before the image
  (`validateKeyPoints_refuted`).
* `lv::validateKeyPoints` checks `pt.x < cols` and then reads the mask at the rounded position, out of bounds for
  `cols-0.5 < pt.x < cols` (`validateKeyPointsROI_refuted`).
* The documented equivalence of `compute2` with `compute` + `reshapeDesc` fails where no keypoint lies (stale content
  versus 0, `compute2_stale_refuted`) and at fractional positions of single-channel images
  (`reshape_rounding_refuted`: `reshapeDesc` rounds for one channel and truncates for three).
* An LBSP threshold of `2^31` or more is converted through `int` and can become 0 (`absThreshold_refuted`).
* The x gradient of `computeDescriptor_gradient` counts towards `x < 0`, the y gradient towards `y > 0`: the two axes have
  opposite sign conventions (`masks_spec`, `gradient_transpose`).
* Lam-Lee-Suen thinning, the default mode, reads index 8 of an array of 8 elements for nearly every image
  (`Litiv.Thinning.lamLeeSuen_out_of_bounds_refuted`); the result depends on the stray byte (`lamLeeSuen_stray_refuted`) and a
  zero there splits components (`lamLeeSuen_components_refuted`). With the lines meant to repair this compiled in (MSVC) the
  counters are doubled and nothing is thinned (`lamLeeSuen_fixed_refuted`).
* Zhang-Suen thinning erases 2x2 squares (`zhangSuen_components_refuted`).

* `lv::integral` and `lv::binaryIntegral` reject their own default argument `nOutDepth=-1` (`integral_default_depth_refuted`).
* `calcMedianValue` with a mask selecting nothing reads past the end of its histogram (`medianValue_empty_refuted`).
* For an even number of pixels `calcMedianValue` gives the upper median while `medianBlur` gives the lower one.
* `binaryMedianBlur` without mask and with `bForceConvertBinary=false` sums raw 0/255 values, so one set pixel turns its whole
  neighbourhood on; with a mask the flag has no effect (`binaryMedianBlur_raw_refuted`).
* `nonMaxSuppression` marks the first pixel of a plateau lying inside one tile, so marked pixels are not always strict maxima
  (`nms_strict_refuted`); strict maxima with non-positive values are lost when the window does not leave their tile (`nms_negative_refuted`).
* `nonMaxSuppression` with a mask and negative values treats a tile without selected pixels as a candidate of value 0 at the pixel
  up-left of the tile: it marks excluded pixels (`nms_masked_out_refuted`) or writes outside the matrix (`nms_out_of_bounds_refuted`).
* Three-channel ViBe compares squared distances accumulated in 16 bits: a black sample matches the colour (255,22,6), whose squared
  distance 65545 wraps to 9 (`vibe3_mask_refuted`).
* PBAS with self-diffusion (the default) writes values of pixels labelled foreground into their own model when a neighbour is
  background (`pbas_foreground_refuted`); its single-channel `apply` indexes the model with the row stride of the input, so an image
  with padded rows writes past the model (`pbasIndex_refuted`).
* LOBSTER's initial descriptors are computed on an image zeroed outside the retained ROI, which always excludes the image border:
  a uniform 7x7 scene is labelled foreground everywhere when shown again (`static_refuted`). The sampling window (3) also exceeds the
  ring (2) kept around a user ROI.
* LOBSTER accepts 4-channel images at initialization, but `apply` uses 3-channel offsets for them (not modelled).
* `IBackgroundSubtractorLBSP::initialize_common` tests the border with a strict `>`: row and column 2 never get a last descriptor.
* The ROI returned by `getROICopy` contains the value 128 around a user ROI, which `initialize` rejects (`roi_copy_refuted`); a ROI set
  before initialization gets no ring (`setROI_init`).
* `MutualInfo::validateROI` clears the last row and column at which the window fits (`validateMI_refuted`).
* `lv::read` of an LZ4 archive does not check the stream after reading data stored uncompressed: a truncated file is accepted and the
  matrix holds uninitialised bytes (`lz4_truncated_refuted`).
* `lv::read` of a binary archive stores as many bytes as the file declares, whatever buffer its declared type and sizes lead to: a
  crafted or corrupted file overflows the buffer (`bin_overflow_refuted`).
* `lv::unpackData` returns a default `cv::Mat()` for a matrix without elements although its shape and type were recorded
  (`pack_hollow_refuted`); `lv::packData` refuses matrices with more than four channels (`pack_channels`).
* `lv::extract_32si` without SSE4.1 computes `(lo + hi) << 16` where `lo + (hi << 16)` is meant (`simd.hpp:127`):
  the value is right exactly when the low half of the lane is zero (`extract32_refuted`, `extract32_partial`).
* `lv::cvtBGRToPackedYCbCr` reuses an output that already has the aligned allocator and the right size. A sub-matrix
  of an aligned matrix qualifies although its rows need not be aligned; the aligned stores then fault (`encRow_unaligned_refuted`).
* `lv::AlignedMatAllocator` accepts any non-zero alignment but aligns only for powers of two (`aligned_layout_refuted`).
* `lv::LUT` with an even number of bins: `m_pMid` points half a step above the middle offset, so mid lookups are half a
  step off (`eval_mid_even_refuted`), and without a safety margin `eval_mid_round` at the upper end of the domain reads
  past the table (`eval_mid_round_refuted`).
* `lv::LUT::eval` at the upper end of the domain can return the previous sample because the scale is rounded down
  (`eval_ieee_refuted`, `LUT<double,…,2>` over [0,49]); the result is always within one sample (`eval_ieee`).
* `lv::shift` with a negative fractional delta: the interpolation filter sees zeros beyond the last column or row instead
  of the chosen border, so e.g. a constant image with replicated border does not stay constant (`shift_fill_refuted`).
  Fractional shifts also turn integer images into 32-bit float images.
* `getUniqueColorMap` on a matrix with a single distinct value returns before filling the caller's colour table (`pmColorMap`).
* `lv::getBasicMat` ignores the steps of its input, so on views with gaps it exposes memory which is not part of the view
  (`getBasicMat_refuted`); `lv::isNearlyEqual` therefore reports equal views as different (`isNearlyEqual_refuted`).
* `lv::isEqual<T>` on continuous matrices only checks `elemSize >= sizeof(T)`: if the buffer is not a whole number of `T`s
  (three bytes through a two-byte type) the traversal is undefined (`isEqual_refuted`).
* `lv::MatSize_`: the element count wraps around in 64 bits, so a size of 65536^4 counts as empty and equals every empty
  size; comparisons between different integer types truncate the right-hand side and are not symmetric (`equal_refuted`).
* `lv::getSubMat` does not check for negative dimension indices.
* `lv::getSubPix` truncates coordinates towards zero: left of and above the image it extrapolates instead of using the border
  mode and can leave the range of the pixels; `BORDER_CONSTANT` reads outside of the image (`sample_refuted`).
* SuBSENSE: `apply` shifts an `int` by 32 bits or more when the long- and short-term averages of the downscaled frames differ by
  64 or more, for instance after 100 black frames and 11 white ones (`cap_shift_refuted`); with averaging windows of fewer than
  four frames it divides by zero (`short_average_refuted`); the distance factor can grow until the descriptor threshold's shift
  is undefined, although only after thousands of blinking frames (`dist_shift_refuted`, `ranges1_partial`).
* SuBSENSE: the frame-to-frame colour distance of three-channel images is computed in `uchar` and wraps modulo 256
  (`last_distance_refuted`).
* SuBSENSE and LOBSTER: `IBackgroundSubtractorLBSP::initialize_common` computes the initial descriptors only strictly inside the
  border, while relevant pixels start on it: their initial descriptors are 0, and `refreshModel` copies them into samples
  (`init_descriptor_refuted`).
* SuBSENSE: during the cooldown after a reset a foreground pixel's own samples are overwritten (`frame_effect`).
* SuBSENSE: an infinite negative learning rate override disables learning although values `<= 0` are documented as ignored.
* SuBSENSE: images of at least 320x240 pixels with fewer than 8 rows or columns give an empty downscaled frame
  (the model's `down = []` case divides by zero).
* SuBSENSE: four-channel images pass `initialize_common` but are processed with three-channel strides.
* `MutualInfo::validateKeyPoints` uses a larger border than the descriptor needs.
* The multichannel `cv::Mat` overload of `lv::getSubPix` calls itself and cannot be instantiated.
* PBAS accepts initial learning rates up to 255 but clamps at 200 and 2: a foreground frame lowers a rate of 255 to 200, and a
  background frame raises a rate of 1 to 2 (`Pbas.rate_direction_refuted`).
* PBAS caps distances at 255, and its threshold factor never falls below 0.57: with a default threshold of 448 or more nothing is
  ever foreground (`Pbas.blind`). Its upper limit of 99 for the factor has no effect: the factor never exceeds 5.88 (`Pbas.ranges`).
* PBAS does not reset the mean gradient distance in `initialize`; after a second initialization it still reflects the old scene.
* Three-channel PBAS has the same 16-bit accumulation as ViBe: a black sample is at distance 1 of the colour (255,16,16)
  (`Pbas.far_colour_refuted`).
* The LBSP edge detector fills its gradient map with a 32-bit word meant to hold the bytes (127, 127, 255, 0); where words are stored
  least significant byte first the bytes are (0, -1, 127, 127). The merged x gradient is then always 0, so the horizontal axis is never used
  for the local maximum test: a slanted step edge loses pixels (`EdgeLBSP.axis_refuted`).
* The LBSP edge detector accesses memory outside of its buffers when a level has one row (with the default three levels: images of at most
  four rows), or one column and more than four rows (`EdgeLBSP.pyramid_small_refuted`).
* With two levels or more and an odd number of rows or columns, the LBSP edge detector writes to the padding around its gradient map; this has no
  effect on the result, because magnitudes near a border are zero.
* `calcMutualInfo` with `bFastNumApprox` sums over the positions of `oJointCount`, which that mode never fills: the score is 0 with a fresh object
  (`MI.mi_fast_refuted`), and with a reused one it uses the positions of an earlier call and can be negative (`MI.mi_stale_refuted`).
* `calcJointProbHist` subtracts the extreme values of an input as `int`; for `int` inputs this can overflow (`MI.hist_spread_refuted`).
* `computeImageAffinity` with mutual information gives two equal patches the largest distance, 1, if all their pixels have the same value
  (`Affinity.image_affinity_equal`).
* `computeDescriptorAffinity` with patches of more than one pixel gives values to pixels outside of the first region (`Affinity.roi_refuted`).
* `computeImageAffinity` uses a function-local `thread_local` object inside an OpenMP region (`imgproc.cpp:388`). Other threads never pass its
  declaration, so C++ does not construct the object for them (a remark from reading; the model assumes a constructed object per thread).
* `getLogPolarMask` (Chatfield) gives bins that do not exist when the number of angular bins does not divide 360 (`LSS.mask_bins_refuted`); `LSS` then
  writes outside of its buffer. With more than 360 bins it divides by zero, and with size 3 it converts an infinite number to `int`
  (`LSS.mask_defined_refuted`).
* Lienhart's mask with one radial bin is empty (0/0 in the ring distance, `LSS.mask_one_ring_refuted`): all descriptors are then equal.
* `LSS::compute2` with keypoints does not clear the map: other pixels keep old or uninitialised values (`LSS.keypointMap_refuted`).
* `LSS::isUsingDynamicNoiseVarNorm` returns `USE_STATIC_VAR_NOISE`, that is, true when the static variance is used (from reading).
* `GMM` evaluation asserts (debug builds) that the covariance determinant exceeds the machine epsilon, but the diagonal noise only ensures `0.01^D`: a component with identical samples in dimension 8 fails it (`GMM.debug_assertion_refuted`).
* `initGaussianMixtureParams` calls `cv::kmeans` when a segment has more than `nD` pixels, but `kmeans` needs at least as many samples as components: 4 pixels with the default 5 components throw (`GMMSeg.init_small_refuted`).
* `assignGaussianMixtureComponents` leaves the labels of pixels outside of the region as they were, uninitialised in a new map (`GMMSeg.assign_outside`).
* `ImageWarper` interpolates the displacements of a cell cut by the right or bottom border with the number of rows or columns of the cell as a divisor, but the far nodes are one less away: the last row and column do not reach their displacement, so a control point there does not show its source (`Warp.warp_exact_refuted`).
* `ImageWarper` in rigid mode divides by zero when the source points are equal (NaN displacements, then conversion of NaN to `int`), and in similarity mode when the destination points are equal (`Warp.node_rigid_refuted`, `Warp.node_similarity_defined`); a single control point is ignored (`Warp.warp_single_refuted`).
* `ShapeContext::compute2` on a whole image reuses the key points of an earlier image of another size when a `detectAndCompute` call without key points came in between: `m_oCurrImageSize` is updated, the key points are not (`SC.dense_refuted`); pixels are missing or written out of bounds.
* `ShapeContext::compute2(image, cv::Mat&)` with a non-empty output of another size computes into a new buffer the caller never sees (`SC.output_refuted`); `LSS::compute2` (`LSS.cpp:113-120`) and `DASC::compute2` (`DASC.cpp:136-143`) have the same code.
* `ShapeContext` counts twice the contour points around a key point that is given twice, as contours of thin lines are when no key points are given, and the parallel loop then has a data race (`SC.map_duplicates_refuted`); key points outside of the image are written out of bounds (`SC.map_outside_refuted`).
* `ShapeContext` with one ring and absolute distances and angles never counts anything (`SC.direct_one_ring_refuted`); with a large inner radius it counts points outside of the outer radius (`SC.direct_outside_refuted`).
* `ShapeContext` with rotation invariance is not invariant when a contour point is the centre of mass (`SC.rotation_refuted`); with relative distances it is not exactly scale invariant (`SC.scale_refuted`); bins without mask cells have a zero cost between them (`SC.emd_positive_refuted`).
* `DASC` tests `nOffsetRowIdx>0` and `nOffsetColIdx>0`, so samples in the first row and column are treated as outside of the image: key points at row or column 15 are kept but have values that are zero for every image (`DASC.raw_first_row_refuted`, `DASC.kept_complete_refuted`).
* `DASC` with the guided filter takes square roots of products of differences that are not variances and can be negative; the NaN compares false and the value is 1, so it is covered by `DASC.dense_unit` but not by `DASC.raw_range`.
* `SLIC` divides a block of `diam*diam` threads in `ceil(diam²/max)` slices of `floor(max/diam)` rows: for diameters above 32 (with 1024 threads per block) the slices of a block do not add up to a cell, so some pixels keep whatever label they had (`Slic.assign_cover_refuted`) and others are compared with clusters far from them (`Slic.assign_cell_refuted`).
* `SLIC` starts its search with a distance of 100000: with a very large compactness no cluster is found, the label is -1 and `atomicAdd` writes before the accumulators (`Slic.segment_wc_refuted`).
* `SLIC::initialize` with more superpixels than pixels divides by zero (`Slic.init_fails_iff`).
* `kRgb2CIELab` tests the already transformed `y` when it computes the lightness, so the linear part for dark pixels is never used and black has lightness -16 (`Slic.lab_lightness_refuted`); it divides `z` by its cube root instead of taking the cube root, so `b` is not CIE `b` (`Slic.lab_b_refuted`).
* `SLIC::enforceConnectivity` does not mark the first pixel of a region: with less than four pixels per superpixel, regions of one pixel keep label -1 and are counted (`SlicConn.enforce_small_refuted`); if no region is large enough, it returns zero although label zero is used (`SlicConn.enforce_number_refuted`). The first pixel is collected twice, so regions of one pixel less than the limit are kept.
* `SLIC::displayBound` draws no boundary in images of one row (`SlicShow.bound_row_refuted`).
* `BackgroundSubtractorPAWCS::initialize` on an object that has a model keeps the pointers of `m_vpGlobalWordDict` and `m_vpLocalWordDict`, so global words without a location map are read (`Pawcs.restart_refuted`).
* `BackgroundSubtractorPAWCS::apply` with one channel copies the words of the neighbour (line 850) and loses the updates (`Pawcs.one_channel_refuted`).
* `BackgroundSubtractorPAWCS::apply` with a learning rate override of 2^63 computes a remainder by zero (`Pawcs.override_refuted`).
* `BackgroundSubtractorPAWCS::apply` shifts a 64-bit integer by 64 bits or more for a pixel that blinks for thousands of frames (`PawcsFeed.dist_shift_refuted`), and divides by zero with an averaging window of less than eight frames (`PawcsFeed.short_window_refuted`).
* `BackgroundSubtractorPAWCS::apply` never clears `m_nFramesSinceLastReset` when automatic resets are switched on again, by `setAutomaticModelReset(true)` or by a strong change, so that after 1001 frames without a reset the model is never reset again (`PawcsFeed.reenable_refuted`).
* `getBackgroundDescriptorsImage` of LOBSTER and SuBSENSE sums rounded quotients; with 583 equal samples of 16 bits the image differs from them (`BgImage.many_samples_refuted`).
* `BackgroundSubtractorPAWCS::apply` resets the model with `m_nLocalWordWeightOffset/8`, which is 0 in the moving-camera mode: new words have no occurrences, and `getBackgroundImage` divides zero by zero when a pixel has no other words (`PawcsFeed.pawcs_background_refuted`).
* `PTZPointHVtoXY` truncates toward zero, so a direction up to one and a half pixels left of (or above) the image is given column (row) 0 (`Vptz.pixel_of_direction_refuted`), and divides by zero for a direction at exactly 90 degrees (`Vptz.pixel_right_angle_refuted`).
* `GTTranslator::GetGTBoundingBox` accepts a box as wide as the image and then throws (`Vptz.box_full_width_refuted`); `UpdateViewAngle` checks the old angles instead of the new ones (`Vptz.update_view_refuted`), and the second constructor checks angles before they are initialised.
* `Camera::Set(PTZ_CAM_HORI_ANGLE, 540)` stores -180, after which the camera cannot be moved to a pixel (`VptzCam.set_direction_refuted`); `WaitDelay` counts the last motion again when the camera has not moved (`VptzCam.motion_repeated_refuted`); `BeginPlaying` does not reset `executionBeginTime` (`VptzCam.play_again_refuted`); a single image has a frame rate of `DBL_MAX` and overflows (`VptzCam.still_image_refuted`); the flags `PTZ_CAM_HORI_ANGLE_CHANGE` and `PTZ_CAM_VERTI_ANGLE_CHANGE` exist but `Get` refuses them.
* `Evaluator::Setup` with a negative first frame can give a test that ends before it starts (`VptzEval.setup_refuted`); `BeginTesting` during a test, destruction during a test and OpenCV exceptions during `SetupTesting` break the file (`VptzEval.file_complete_refuted`).
* `Evaluator::UpdateCurrentResult` compares the column of the target with the number of rows (`VptzEval.out_of_view_refuted`), divides zero by zero for two empty boxes (`VptzEval.overlap_empty_refuted`); `EndTesting` divides the overlaps of all frames by the number of frames in view, and the number of processed frames by one less than the number of frames (`VptzEval.averages_refuted`).
* `SegmMatcher` accepts 253 disparities, but its association price tables have 200 entries and are indexed with the number of matches of a column: with 200 or more disparities they are read out of bounds (`SegmAssoc.price_tables_refuted`); only a debug assertion looks at the size.
* `SegmMatcher` numbers the cliques of its resegmentation graph in two ways: `updateResegmModel` numbers all pairwise cliques first and then the temporal ones, in the order of the threads, the solver numbers them node by node; the positions in a temporal clique are reversed as well. From the second frame on (temporal cliques are valid then) the table of memberships is wrong whenever there is one temporal clique, in every order of the threads (`SegmDual.temporal_table_refuted`), and the move that is optimal for the minimizer can raise the energy (`SegmDual.temporal_move_refuted`). Compiled by default.
* `SegmMatcher` smooths the primary camera's labels last and does not mask them again: its output can have no label at a pixel of the region of interest and a label outside of it (`SegmProj.first_output_mask_refuted`). With camera 0 as the primary one these labels are also projected on camera 1 (the order of the cameras decides), with camera 1 the unsmoothed ones are.
* `SegmMatcher::infer` zeroes the counters of changed labels at every resegmentation move (continuous updates are compiled by default) but sums them only after the second move of each pair: a pass whose first move changed the masks and whose second did not reports no change, stops, and the shape features, median labels and stereo costs are not updated for the new masks (`SegmRun.pass_notices_refuted`).
* `SegmMatcher`: features computed ahead for several frames differ from those computed in turn (optical flow relative to the wrong frame, `SegmRun.precalc_ahead_refuted`); a packet given by `setNextFeatures` survives `resetTemporalModel` (`SegmRun.reset_keeps_packet_refuted`).
* `SegmMatcher::updateStereoModel` gives a disparity whose match is out of the other image (or of its region of interest) the sum of the costs of the smaller visible disparities divided by one more than their number, so always less than the largest of them, and 0 if there are none; the distance to the median label is lost as well. Without texture the initial disparity is one that the other camera cannot see whenever there is one (`SegmUnary.flat_goes_out_of_view`), and a pixel whose smallest disparity is out of view takes it whatever the images (`SegmUnary.first_out_of_view`).
* `SegmMatcher` penalizes the squared difference of neighbouring disparities up to a limit, which violates the triangle inequality (`SegmUnary.triangle_refuted`): expansion moves are not submodular and QPBO may leave pixels without an answer (they keep their labels).
* The GPU evaluator counts the invocations of incomplete work groups as "don't care" pixels: for 320×240 frames (320 is not a multiple of 12) its counters differ from those of the CPU (`GLEval.gpu_is_cpu_refuted`), so the check enabled by `DATASETUTILS_VALIDATE_ASYNC_EVALUATORS` fails.
* The GPU evaluator compares a frame without ground truth with the ground truth of two frames earlier (`GLEval.missing_gt_refuted`); `resetMetrics` does not clear its counters.
* With a driver limit between 25 and 47 bytes the halving in the constructor of `GLImageProcEvaluatorAlgo` may give a counter buffer of size zero (`GLEval.rows_kept_refuted`).
* `IBackgroundSubtractor_GLSL::initialize_gl` builds a default region of interest and then passes the empty one on, which the parent refuses  (read off the code, not modelled).
* The first `apply(image, mask)` on a GPU background subtractor or edge detector switches output fetching on after the frame was processed and returns a buffer which was never filled (C167, `mask_refuted`).
* With two texture layers and no input buffers, as built, the layer given to shaders as `nLastLayerIdx` already holds the next input frame (C166, `last_input_refuted`); no shader in the project reads it.
* The prefix sum shader accepts block sizes which are not powers of two, for which it reads and writes its shared array out of bounds (`GLScan.block_scan_sizes`); the block merge adds an exclusive sum instead of the total of the previous block and so drops the last element of every block (`GLScan.long_row_value`); the documented dispatch covers only half of a long row (`GLScan.documented_dispatch_refuted`).
* The post-processing stage of GPU LOBSTER filters its output image in place: near the border of two work groups the result depends on their order (`GLPreload.postproc_refuted`). Even kernel sizes give a threshold for a smaller window than the one counted (`GLPreload.even_kernel_refuted`).
* `getRandNeighbor3x3` discards the result of `clamp`, so that neighbours of border pixels lie outside of the frame (`GLPreload.neighbour_inside_refuted`); GPU LOBSTER is only saved by the cleared border of its region of interest.
* The refresh of GPU LOBSTER calls `computeDescriptor` with the channel index before the swap of red and blue: the reference value of one is compared with the neighbours of the other (`GLLobster.init_desc_refuted`). On a uniform scene whose red and blue differ by more than the threshold every pixel is foreground right after initialization (`GLLobster.uniform_color_foreground`).
* The same function computes the offset in the foreground mask with the number of rows instead of columns: on frames which are not square it refreshes foreground pixels, and on tall frames reads behind the mask (`GLLobster.refresh_mask_refuted`, `refresh_bounds_refuted`).
* The GPU LOBSTER update draws two random sample numbers, one for the colour and one for the descriptor, so that samples mix colours and descriptors of different inputs, unlike the CPU version (`GLLobster.pairs_refuted`).
* Plain text archives keep six significant digits only: an integer label map with a value of 1234567 is read back with 1234570, without an error (`TextIO.text_exact_refuted`). Matrices with an infinity or NaN, such as cost maps, can be written but never read (`TextIO.text_nonfinite_refuted`).
* The display helper chooses the side to shrink by comparing width and height of the display with each other instead of its proportions with those of the maximum size: 2600x1950 images are shown with 2560x1920 pixels on a 2560x1440 maximum; tall maximum sizes can enlarge images; very wide images get tiles of height zero, and cannot be shown (`Display.display_fits_refuted`, `display_enlarged_refuted`, `display_possible_refuted`).
* 32-bit images are scaled by `255/INT_MAX` plus 127, twice the scale needed for the documented range: half of the values are shown as black or white (`Display.conv32s_refuted`).
* The debugging output of SuBSENSE and PAWCS takes the mouse position relative to the whole display instead of the tile, and so describes another pixel than the one under the mouse (`Display.debug_point_refuted`; only with debugging output compiled in).
* `loadFeaturesArray` decides by the index of the last packed request whether to unpack again. After `loadFeatures(n)` it returns an empty or an older array for `n`; other packing information is ignored; after a failed call for features that do not exist, a second call returns views of released memory (`Loader.features_mixed_refuted`, `features_info_refuted`, `features_missing_refuted`).
* Features saved for the packet last loaded are not seen by later loads of that packet, which return the old ones (`Loader.features_saved_refuted`).
* `kOfN` draws from `[0, nextafter(1))`: a draw equal to 1 skips an index that was needed, the assertion fails or, in release builds, values are left unwritten (`KofN.kofn_closed_refuted`).
* BSDS500 without the benchmark code: every groundtruth pixel takes the first detected pixel of its window, so that a detection identical to the groundtruth can have a precision of 1/2 (`Bsds.simple_precision_refuted`).
* BSDS500: unique values equal to the threshold are skipped when looking for the next evaluation, and following thresholds get the counters of a lower threshold (`Bsds.bins_exact_refuted`). With 25 bins the last threshold is 254 (`Bsds.thresholds_last_refuted`).
* BSDS500 `updateScores` cannot compute the area under the precision-recall curve: `interp1` is asked for recalls 0 to 1 and throws a domain error as soon as the overall recalls differ without spanning [0,1]; if they do span it, the sum runs one value past the end (`BsdsScore.area_partial`, `area_refuted`).
* A work batch directory named like the dataset loses its evaluation report: the report of the dataset is written to the same file (`Report.reports_refuted`).
* The GPU `computeDescriptorAffinity` sums squared differences by halving the number of threads, which need not be a power of two: with 129 to 192 disparities every third bin of the descriptors is ignored (`CudaAff.disparities_refuted`), with patches of 9 pixels every third column of the patch (`patch_refuted`); only an assertion in device code notices.
* The same function checks `!oROI1.empty() && !oROI1.empty()`: a first region without a second one is accepted and read through a null pointer (`CudaAff.refused_refuted`).
* It remembers the disparities last uploaded per host thread, although the device has one copy: after a call of another thread, stale disparities are used (`CudaAff.range_cache_refuted`).
* The shape context kernel normalizes an empty descriptor to NaN, the CPU version to a uniform one (`CudaSC.empty_refuted`).
* With a block size of 64 the kernel has no barrier between storing the squares and adding them up: the norm may miss half of the bins (`CudaSC.block_refuted`). With the default 32 threads and more than 32 bins it relies on warps running in lockstep (`CudaSC.lockstep_refuted`). With larger blocks it overruns its shared memory, which the host sizes for 32 threads (`CudaSC.shared_refuted`).
* `ShapeContext::compute2` with key points computes descriptors at all pixels when CUDA is used, at the key points only otherwise (`CudaSC.sparse_refuted`); halves are rounded to even on the GPU and away from zero on the CPU (`CudaSC.rounding_refuted`).
* CDnet frames are paired with ground truth files by position only; a missing file and a file in excess shift the pairs silently (`DirList.cdnet_refuted`).
* The Wallflower and PETS2001 parsers search `hand_segmented_`, `.bmp` and `image_` in the whole path: a directory name that holds one of them breaks the sequence (`DirList.wallflower_path_refuted`, `DirList.pets_refuted`). PETS numbers are cut after four digits, so that frame 10000's ground truth replaces that of frame 1000.
* A blank line in a subset file makes the VAP and LITIV 2018 parsers throw (`Subset.subset_blank_refuted`).
* VAP windows are cut at frame 2500 instead of the end of the sequence, so that a listed frame near the end makes the sequence unreadable (`Subset.vap_end_refuted`); when the subset is only evaluated, `isTemporalWindowBreak` looks packet indices up in the set of windows and reports breaks in a contiguous sequence (`Subset.vap_break_refuted`); the listed numbers are taken as positions among the ground truth files (`Subset.vap_sparse_refuted`).
* LITIV 2018 ground truth files are searched by number in the whole path: a data path with five digits attaches the ground truth of another frame (`Subset.litiv_path_refuted`).
* The offset and the bounds of the disparities are truncated separately, so that the scaled range is not covered (`Subset.vap_range_refuted`); LITIV 2018 ground truth disparities are not scaled while the bounds are (`Subset.litiv_range_refuted`).
* `push` counts a packet before evaluating it: a packet whose evaluation throws is counted, and a packet pushed twice is counted once but enters the metrics twice (`EvalRun.count_refuted`); in array batches the streams before an unfit image have entered the metrics when the push throws (`EvalRun.arr_refuted`).
* The reader of LITIV 2014 ground truth does not check that its reads succeed: a file cut after the third line of a record is accepted with the column as row and disparity, while a blank line at the end is refused (`Bilodeau.truncated_refuted`). At scale factors other than 1 the maps hold values above `getMaxDisparity`, and a sequence whose disparities are all zero is refused (`Bilodeau.range_refuted`).
* LITIV 2018 sequences whose disparity range does not start at 0 and is not flipped move the LWIR stream by the offset in the wrong direction: with a range from 2 to 30, the match of a pixel of disparity 8 is 12 columns away (`Corresp.disparity_match_refuted`).
* `createBinFileWithPrealloc` empties an existing file which it may write but not read (`Files.prealloc_refuted`); `createDirIfNotExist` returns false when another process creates the directory between its two calls (`Files.createDir_refuted`).
* `DataHandler::createOutputDir` ignores the results of `createDirIfNotExist` and returns a path when no directory could be made; only the last name of the global directory is made (`OutDir.output_refuted`). A name ending with a backslash is taken as already separated, so outputs are written outside of its directory on POSIX (`OutDir.backslash_refuted`). A batch called `precomp` shares the feature directory of its group (`OutDir.precomp_refuted`).
* `StereoDispErrors::getColoredMask` scales errors from the smallest one of the image instead of 0: with the maximal error at every pixel, nearly the whole mask looks like a perfect result (`DispMask.mask_refuted`).
* `computeTemporalAbsDiff` extrapolates the second image when the flow leads less than one pixel out of the image on the left or at the top, and the difference of 8-bit images can exceed 255 (`Flow.diff_refuted`).
* `SegmMatcher::initialize` refuses regions of interest which cover the whole image: the constructor of its model asserts that the number of valid nodes is strictly below the number of pixels (SegmMatcher.cpp 1001; `ResegmGraph.create_refuted`).
* `sparseness` divides by the L2 norm without a check (`math.hpp:889`): for a zero vector, such as the descriptor of an empty window or affinities which are all zero, the result is not a number (`RootSift.sparseness_refuted`). `SegmMatcher.cpp:2400-2402` and `2490-2492` put such values into the saliency maps, whose minimum and maximum are then searched by `cv::normalize`; `std::max(NaN,x)` with the descriptor's value first returns NaN.
* `getInternalLabel` (`SegmMatcher.cpp`, after `getRealLabel`) asserts in debug builds both that the label is a special one and that it lies between the smallest and largest disparity, which no label can satisfy.
* `litiv-stcharles2018.hpp:1107-1108` (also 1127, 1277): a colour-to-depth entry is tested against the image size before it is rounded, so 511.5 passes `x<512` and is rounded to column 512; column 512 is the next row's first pixel, and row 424 is past the end of the image (`DepthMap.remap_refuted`).
* `litiv-stcharles2018.hpp:1110` mirrors the remapped depth image with the RGB image; the depth ground truth (1273-1279) is remapped with the same map and never mirrored (`DepthMap.mask_refuted`).
* An algorithm with CUDA support keeps its device identifier (`algo.hpp:96`) but never selects the device again: a second object initialized with another device, even one whose initialization fails at the check of capabilities (`cuda.cpp:66-68`), moves the first one, still turned on, to that device (`CudaToggle.device_refuted`).
* `EdgeDetectorCanny::apply_threshold` is documented to take thresholds between 0 and 1 and to use the default otherwise; it only replaces negative thresholds, and 1 is far below the scale of gradients used (`EdgeDetectorCanny.cpp:38-42`, `Canny.default_refuted`). The number called half kernel size is used as the kernel size (34). No conversion to gray is done, unlike documented.
* `EdgeDetectorCanny::apply` with a gray image as input and output sets it to zero before it is read (`EdgeDetectorCanny.cpp:48-50`, `Canny.in_place_refuted`).
* `MatType(int)` accepts codes with bits above the twelve which it checks, and compares whole codes, so that types with the same channels, depth and name can be unequal (`opencv.hpp:199-201,252`, `MatType.same_refuted`).
* `MatType::isTypeCompat` with channels treats five and more channels as four; they are excluded only in debug builds when the type comes from a matrix (`opencv.hpp:204-206,286`, `MatType.compat_refuted`).
* VAP trimodal dataset: the calibration maps have the original image size, so scaled images are brought back to it by the remapping and do not have the announced size (`vap-trimod2016.hpp:376,431,682-685`, `VapLoad.size_refuted`). Depth images of 16 bits are announced with 8 (353, 724, `VapLoad.depth_refuted`).
* VAP trimodal dataset: the correction of the thermal ground truth of scene 3 is not applied when the same masks are loaded as input (709-718, 775-781, `VapLoad.mask_gt_refuted`). The correction for scene 2 has no effect, because scene 2 is left out whenever images are undistorted (96-110, 786).
* `urand(inout uint)` of the shaders returns zero for ever when its seed is zero (`TinyMT.hash_zero_refuted`); nothing in the code keeps callers from it. The TinyMT32 set-up omits the check of the reference implementation for the all-zero state, but no value of `rand()` leads to it (`TinyMT.alive`).
* `GLTexture2D` from a matrix of floats with `bUseIntegralFormat` combines a float internal format with an `_INTEGER` pixel format, which OpenGL rejects (opengl-draw.cpp 118-119, opengl.hpp 168-173, `GLFormat.upload_refuted`). Formats of three channels are given GLSL names (`rgb32f`, `rgb32ui`) which no image can be declared with (`GLFormat.names_valid_refuted`). `CV_8UC3` comes back as `CV_8UC4` (`GLFormat.round_trip_refuted`).
* `GLDynamicTexture2DArray::updateTexture` from a pixel buffer with the default `bRebindAll=false` leaves the buffer bound, so that a later update from a matrix reads its address as an offset in the buffer (opengl-draw.cpp 293-303, `GLTex.left_bound_refuted`); without rebinding an update also goes to whichever texture is bound (`GLTex.other_written_refuted`). Updates from buffers never renew mipmaps (`GLTex.levels_refuted`). Without `glGetTextureSubImage`, fetching a layer into a buffer transfers all layers (`GLTex.part_refuted`). The constructors of `GLTexture2D` and `GLTexture2DArray` with their default `pData=nullptr` always fail the assertion of `deepCopyImage` (opengl.cpp 158, 173).
* `IVideoCosegmentor_::setROIs` does not update the pixel counts, does not compare the masks with the image sizes, and accepts masks that have no useful pixel left once the borders are removed (`Coseg.set_counts_refuted`); `initialize_common` may throw after the first streams were replaced (`Coseg.refused_keeps_refuted`); refused masks may already be shrunk in the caller's array (`Coseg.caller_masks_refuted`).
* `lv::gm::printModelInfo` prints `SIZE_MAX` labels min and 0 labels max for a model without variables (`GMInfo.labels_refuted`).
* `changedet` (`main.cpp:402-409`): with `DISPLAY_OUTPUT` the mask is marked outside the region of interest and then pushed, so the display changes the results (`ChangeDet.display_refuted`).
* `changedet` (`main.cpp:416-420`): exceptions of a batch are swallowed; a run whose batches all failed writes its report and ends with code 0 (`ChangeDet.exit_code_refuted`).
* `changedet` (`main.cpp:347`): `srand(0)` per batch is meant to make runs repeatable, but the generator is shared by the workers; with two of them the draws depend on the schedule (`ChangeDet.repeatable_refuted`).
* `vidreg` (`main.cpp:214-216`): the averages divide by the frames from the first transformation to the end of the video, not by the frames evaluated; they are too small when the streams end early, the user quits or a transformation is lost, and zero is divided by zero when none is found (`VidReg.average_refuted`, `average_below`, `average_defined`). The read of lines 60-61 is followed by a write to the property FRAME_COUNT instead of the position, so the source streams may indeed end one frame early. The average blob error is never updated and always zero (`VidReg.blob_constant`).
* `CosegmPush.full_video_lost`, `all_pushed_refuted`: with `DATASET_EVAL_FINAL_UPDATE`, `apps/cosegm/src/main.cpp:706-782` only catches up when the next index is a temporal break. `isTemporalWindowBreak` answers false past the end of a video that is not loaded as a subset, so the results of the last `getTemporalDepth()` frames are never pushed. A batch cut by `DATASET_BATCH_STOP_MAX_INDEX` inside a window loses them too.
* `Pretrain.short_video`, `order_refuted`: the pretraining of `apps/cosegm/src/main.cpp:515-531` never checks `nMaxInitLoopIdx` against the length of the batch; a video of at most `nMaxInitLoopIdx` frames leaves the loop in the middle of the first pass.
* `RectEdit.safe_refuted`: in the rectangle editor of `apps/cosegm/src/main.cpp:307-408`, a left click near a corner in one image while a rectangle is being drawn in the other sets `bIsSelectingRect` without clearing `bIsDrawingRect`; the next click there fails the assertion of line 314.
