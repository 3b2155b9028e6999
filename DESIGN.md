# Machine-checked model of stempy

## Layout

* `lean/Verif/Model/*.lean` – executable model, one module per source unit; every definition cites `/repo` file:lines.
* `lean/Verif/Spec/*.lean` – small independent specifications (no use of model helpers).
* `lean/Verif/Lemmas/*.lean` – helper lemmas.
* `lean/Verif/Props/*.lean` – the property theorems (`C01_…`), each next to `example`s showing that its hypotheses are met by a non-trivial case.

## Trusted base

* Lean 4.33.0 kernel. Axioms allowed in any theorem: `propext`, `Classical.choice`, `Quot.sound`
  (per-theorem list at the end of this file).
* The reading of the C++ and Python sources into the model (nothing was compiled or run).
* Conventions:
  * undefined behaviour (out-of-bounds vector access, use after free, data race) is the outcome `Outcome.ub`;
    exceptions are `Outcome.throw msg`.
  * integers: fixed-width wrap-around is modelled where a property is about it (mask size, dark subtraction,
    pixel positions); otherwise `Nat`/`Int`, with the range stated as a hypothesis.
  * floating point is replaced by exact integers/rationals or by an arbitrary linear order; rounding error is not modelled, except
    for the counting of a frame in single precision (C92), the histogram in double precision (C94), images, cropping and thresholds (C95–C98), angles (C102), conversions between element types (C56), sums and means of sparse arrays (C77, C107) and the mean of the centers of mass (C106).
  * concurrency: sequentially consistent interleaving of the steps listed in each machine. Accesses that C++ calls
    a data race are a `race`/`ub` outcome where the property is about them.
  * numpy/HDF5/Eigen/pybind11/cereal/MPI transport are external: the behaviour assumed of each is written in the
    comment of the definition that uses it.

## Plan per property (written before the proofs)

| id | model | proof |
|----|-------|-------|
| C01 | `Model.Mask` list of w*h values with uint32 wrap of w*h, int conversion of squares as UB outcome | pointwise characterisation via div/mod |
| C02 | `Model.Image` per-task write sequences, any interleaving | interleaving is a permutation; writes with distinct keys commute |
| C03 | `Model.Image` nested fold | induction, count of events inside annulus |
| C04 | from C01–C03 | algebra over the specifications |
| C05 | decision function returning `Outcome` | case analysis, iff per error |
| C06 | list of edges over a linear order | each value falls in a unique bin; induction over edges |
| C07 | fold over blocks and frames, exact sum | sum invariance under permutation and grouping |
| C08 | exact integer `ceil(sqrt)`; atomic adds as commuting ops over any interleaving | monotonicity of ceil-sqrt, conservation by bucket partition |
| C09 | fold of pointwise max | lattice, permutation invariance |
| C10 | `maximalPoints` loop with `mod` | iff characterisation, sortedness, nodup |
| C11 | from C10 | antisymmetry of `>`; injection into 2x2 cells |
| C12 | preprocessing function | via C10 |
| C13 | fold of updates on array | last-write-wins induction |
| C14 | row-dark loop with swapped dimensions as in code | exact result for every shape; the claim for square frames, its negation for every other shape |
| C15 | both preprocessing functions | exact difference of the values; agreement on all frames iff the dark values are integral; undefined behaviour for dark above pixel |
| C16 | small-step machine main+workers | conservation invariant (multiset) over all steps |
| C17 | padding function | length/contents |
| C18 | same machine | progress + decreasing measure; never passes the wait otherwise |
| C19 | same machine with begin/end of append | invariant under disjoint positions; the exact condition for a race (`C19_iff`: invariant one way, a schedule built for arbitrary frames the other way) |
| C20 | pool machine with sleeping/awake workers, pending notifications | invariant |
| C21 | byte-level parser over list of files | encode/parse round trip by induction |
| C22 | same parser on cut file | prefix argument |
| C23 | reader state machine | reset = initial state on observable behaviour |
| C24 | sector reader machine (record level) | invariant on cache, completion |
| C25 | index maps | div/mod bijection |
| C26 | sector reader machine with reset | invariant of the cache over histories; exact number of frames; same as a new reader iff the cache is empty |
| C27 | small-step machine of the threaded reader | invariant, exactly-once delivery |
| C28 | interleaved map insertion | commuting writes |
| C29 | atomic counter machine + processFrame | exactly-once invariant |
| C30 | readFrames decision + content | induction |
| C31 | readAll state | negation witness; partial: first call |
| C32 | dataCaptured | arithmetic |
| C33 | div/mod placement | bijection |
| C34 | partition functions | sums / covering |
| C35 | gather folds | induction over ranks |
| C36 | serialize/deserialize | round trip |
| C37 | PyReader machine | induction |
| C38 | stride function | equality for square, negation witness for non-square |
| C39 | conversion functions | count preservation |
| C40 | SparseArray sum | equality when frames are duplicate free; negation witness otherwise |
| C41 | max/min/mean | same |
| C42 | bin_scans | perm |
| C43 | bin_frames | square frames; negation witness for non-square |
| C44 | selectors (flat gather); NumPy with one array, with two adjacent arrays (broadcast, axis moved to the front if separated) and with an ellipsis | commutation for all accepted expressions (up to `np.moveaxis` for separated integers, `C44_separated`); the refused ones are errors for NumPy or have arrays on both parts |
| C45 | python slice semantics | arithmetic |
| C46 | reshape/ravel | immediate from flat data plus size check |
| C47 | write/read | round trip for square or reversed shape; negation otherwise if needed |
| C48 | crop index map | index arithmetic |
| C49 | permission decision | case analysis |
| C50 | com kernels | equality of index arithmetic; square restriction for v0 |
| C51 | counts | induction |
| C52 | binning | as C06 |
| C53 | slice semantics at border | interior theorem, negation at border |
| C54 | recursive trees | structural induction |
| C55 | listing filter | case analysis |
| C56 | cast outcome | case analysis |
| C57 | histogram index | negation witness for negative index, partial under non-negativity |
| C58 | pool machine with the lifetime of the result | negation witness for radialSum, invariant for createSTEMImages |
| C59 | wrapper + `_expand` index map | square frames; negation witness for non-square |
| C60 | `Model.SectorFile` bytes of sector files | encode/parse round trip by induction |
| C61 | `Model.NumpyMemory` arrays as views (address, shape, strides) | equality for contiguous arrays, witnesses for the others |
| C62 | `Model.SectorName` regular expression on characters | last match characterised |
| C63 | `Model.PyFrames` random access from Python | case analysis over the frames present |
| C64 | `Model.H5Read` hyperslab selection | index arithmetic, witnesses for stride and overflow |
| C65 | `Model.Iteration` C++ and Python loops over blocks | induction over the stream |
| C66 | `Model.RawFile` HDF5 groups as maps | round trip |
| C67 | `Model.PyStem` dispatch on the kind of input | per kind, via C02/C03 |
| C68 | `Model.Pipeline` functions and dictionaries as objects with identity | heap invariant |
| C69 | `Model.Phase` Fourier inversion over complex numbers | linearity, character sums, derivative |
| C70 | `Model.PyCount` attributes of arrays, reader positions | case analysis, witnesses |
| C71 | `Model.PyCount` overload resolution of pybind11 | case analysis over argument kinds |
| C72 | `Model.Vtkm` clamped neighbourhoods of a structured grid | iff characterisation; negations for border and shape |
| C73 | `Model.Vtkm` reduction trees, atomic additions | induction over trees; permutation invariance |
| C74 | `Model.GaussFit` over the reals | derivatives; uniqueness from three points of a parabola |
| C75 | `Model.Example` loop as an inductive relation | pigeonhole for termination, sequence by induction |
| C76 | `Model.Gil` threads, the lock of Python, counts of references | invariant over all schedules; witness for arguments destroyed without the lock |
| C77 | `Model.SparseDtype` element types with wrap-around or binary rounding | modular sums; rounding characterised independently, exact up to 2^24 |
| C78 | `Model.Handles` library calls with arbitrary answers, identifiers with their kind | ownership logic for each function, induction over calls |
| C79 | `Model.SparseObjects` heap of arrays, tables and dictionaries | reachable references are disjoint and stay so under all writes |
| C80 | `Model.CountMetadata` statistics, options and metadata through C++, Python and the file | composition with C54; witnesses for other readers and ranks |
| C81 | `Model.TypedFile` tree of groups, data sets and attributes with types | invariant and monotonicity over all sequences of calls, round trips after any later calls |
| C82 | `Model.CountingReader` the machines of C18 and C29 as one | refinement of C18's machine by a simulation in which a worker that has left stays idle until the join; C28, C29 for the files; races: a worker alone for any number of frames, and for one thread an invariant on the order of the blocks (`Lemmas.CountingOrder`) |
| C83 | `Model.SectorStreams` the multi-pass reader on bytes: streams with position, eof and fail bits, shared by the threads | invariant with a log of the reads of each stream; the machine without data is that of C29 (shadow), so frames and completeness follow from there |
| C84 | `Model.StreamingThrow` the machine of C16–C19 with an exception in the calling thread; use of destroyed variables is undefined | the data invariant of C16 holds on both sides of the exception; executions split at the exception |
| C85 | `Model.EndToEnd` the parts put together: header pass, counting machine, counting of a frame, Python object, HDF5 file, STEM images | frames of the files specified by records and strips; composition of C28, C82, C25, C12, C59, C47, C03 |
| C86 | `Model.FloatPixels` the loops of the counting for `float` with infinities and NaN | exact characterisation of the events; claim for finite values, agreement with `Model.Electron`; negation for missing sectors and NaN gains; undefined without gain |
| C87 | `Model.BlockPipeline` sampling, rewind and counting over `Model.SectorReader` | history of the cache over reads, arrival order of the round robin; exact content of each position; claim if nothing is left in the cache (files in step); loss of the first sectors otherwise, with a witness |
| C88 | `Model.FilePipeline` sampling, rewind and counting over `Model.StreamReader` and `Model.RawFile` | round trips C21, C37 give all blocks after the rewind from any state; blocks cut into frames; C13 for blocks with any header; exact number of blocks for the thresholds |
| C89 | composition of C85 and C87 over the same files | the frames of the two readers are the same, event lists are unique, equal events give equal arrays and images; if the cache holds too much at the rewind: general loss and an instance with executions of both |
| C90 | `Model.ByteCounting` header pass, rewind and counting with the streams of `Model.SectorStreams` | simulation in both directions between bytes and records, invariant on the positions and flags of the streams; composes C60, C83, C28, C82, C85 |
| C91 | `Model.MpiCounting` ranks with the machine of C82, gathering, broadcast, messages | every rank is simulated by a single process whose thresholds are constant, with the samples of rank 0 cut to its own; global invariant on broadcast, messages and gathered events; composes C34, C35, C82, C85 |
| C92 | `Model.Float32` roundings of IEEE 754 single precision, `Model.RoundedCounting` the loops of counting with every operation rounded | the rounding mode is a parameter (`Rounds`); round to nearest even (`f32`) is defined and proved to be one; rounding is monotone and keeps numbers of the format; refutations in every mode |
| C93 | `Model.EvenReads` the priority queue of streams and the threads which take from it | counts of the labels of an execution; the queue entries carry these counts; an explicit execution refutes it for two threads |
| C94 | `Model.IeeeRound` roundings to any binary format, `Model.RoundedHistogram` bin edges and comparisons in double precision | the rounding mode is a parameter; rounding to nearest even is defined for every format and agrees with `f32` of C92; relative error of one unit in the last place in every mode; explicit evaluation refutes it for 49 bins; `int` counters by a simulation (`Model.HistogramInt`) |
| C95 | `Model.RoundedCom` both versions of com_sparse with single and double precision, square roots included | the rounding modes are parameters; comparison with a rounded square root is the exact comparison if the squared distance has few binary places; quotient of sum and number rounded once or twice; explicit evaluation refutes it for cropping around the center of mass |
| C96 | `Model.RoundedImages` masks, radial sums and averages in double precision | squares and their sums are exact up to 2^53 and compare right beyond; the rounded root of s ≤ 2^52 has the ceiling of the root; sums of integers are exact; explicit evaluation beyond the bounds |
| C97 | `Model.RoundedThresholds` mean, variance and histogram of the samples in double precision | monotone rounding; a deviation of at least one makes the lower limit at most 0; explicit evaluation refutes it for smaller deviations |
| C98 | `Model.PyHistogram` create_stem_histogram for any reader and any number of bins | composition of C67 (images of the frames) with C06 and C94 (edges and bins in double precision); sums are below 2^48, so they are doubles |
| C99 | `Model.RawFiles` the functions on raw data as calls on one sector reader, with rewinds between them | the frames of a new reader from C24's groups of records; composition with C67, C98, C07, C08 and C09; invariant over sessions: the reader is new or empty at every call; `Props/RawBytes` composes with C60: from the bytes of files that may end inside of a record |
| C100 | `Model.LeastSquares` the two line searches of thirdparty/least-squares-cpp, loops as relations that may not end | the loop as iteration of a function; powers of the factor in an archimedean field; explicit functions refute the rest |
| C101 | `Model.LeastSquares` the three optimizers with line search and finite differences | runs as sequences of states and steps; normal equations; over the reals a first order estimate of the error makes the search of lambda end |
| C102 | `Model.Angle` normalizeAngle, equals and iszero, exact and in double precision | iteration; spacing of the numbers of the format: steps get strictly smaller up to 2^56 and change nothing above; error of one step, summed over both loops (`Props.AngleError`) |
| C103 | `Model.Handles` | symbolic evaluation of each function for arbitrary results of the calls |
| C104 | `Model.ReaderFactory` the function `reader` with the arguments of pybind11 and the constructors | case distinction |
| C105 | `Model.MpiBytes` ranks with the machine of C90 on their own streams | simulation in both directions between ranks on bytes and ranks on records, invariant on the streams of every rank; composes C28, C35, C83, C90, C91 |
| C106 | `Model.RoundedMean` `np.nanmean` as a relation: any order of summation, any rounding mode | relative error of one rounding; induction on the tree of sums; composes C95 |
| C107 | `Model.SparseMean` sums in the type, division by the rules of NumPy 1 and NumPy 2 | sums of integers exact in any order; a quotient of two 24 digit numbers is not near a midpoint unless it is one, so that rounding twice is harmless |
| C108 | `Model.Descan` the notebook: rounding, moving events, points of interpolation | moving is injective on events; sums of moved coordinates; C50 for the centers of mass |
| C109 | `Model.Mask`, `Model.Stem`, `Model.Radial`, `Model.PyImage` | induction over the radii, ring by ring, on top of C02, C03, C08, C52 |
| C110 | `Model.Stem`, `Model.PyImage`, `Model.SparseArray` | sums over pixels as sums over events; on top of C02, C03, C40, C51 |
| C111 | `Model.SparseSession` | induction over the sequence with the format of the data as invariant; sums over squares; on top of C40–C48 |
| C112 | `Model.MpiThrow` | the machine of C91 with the exception as a further step of rank 0; invariant that the others wait; progress and termination from C91 |
| C113 | `Model.ThreadedCounting` | product of the machines of C27 and C16–C19; simulation by the streaming machine for the frames delivered so far and any further ones |
| C114 | `Model.FileSession` | simulation of the readers by a cursor in the list of blocks, induction on the session |
| C115 | `Model.SectorPasses` | invariant of the stream over rows and records, independence of the order of the sectors |
| C116 | `Model.ThreadedAgain` | the invariant of C27 with the records left in the cache as further files; induction over the calls |
| C117 | `Model.PyElements` | induction over the axes (row-major positions), composed with the pass of C37 |
| C118 | `Model.SparseKeywords` | the reductions of C77 and C41 compared with those of NumPy, by the shapes and the values of each group |
| C119 | `Model.MpiSizes` | the sizes as `int`s; a table of the results by the sums of the converted sizes |
| C120 | `Model.MpiIndexSizes` | as C119; equal to the model of C35 below 2^31 bytes |

Which of these are proved as stated and which only partly (because the code violates the unrestricted property) is in
`MANIFEST.json`, with the names of the theorems for the part that holds (`…_partial`) and for the violation (`…_false` or a
descriptive name). Statements were refined after the first plan where only an extreme of the domain fails: C20 (a pool
without threads), C22 (a missing file), C27 and C28 (at most four records per frame number), C33 and C34 (sizes below
the 32-bit limits), C39 (at least one frame per position), C53 (border), C56 (extremes of the casts).

## What is modelled, per source file

| source | modules | not modelled |
|--------|---------|--------------|
| `stempy/mask.cpp` | Mask, RoundedImages (double precision) | – |
| `stempy/image.cpp`, `image.h` | Image, Radial, Histogram, Stack, RoundedImages and RoundedHistogram (double precision), PoolClient, Vtkm | explicit instantiations |
| `stempy/electron.cpp`, `electron.h` | Electron, FloatPixels (infinities and NaN), RoundedCounting (single precision), Streaming, StreamingThrow, CountingReader, Vtkm, CountMetadata | explicit instantiations |
| `stempy/electronthresholds.cpp`, `.h` | Thresholds, RoundedThresholds (double precision), GaussFit | Eigen's solver (its result is a parameter); the random generator (its picks are a parameter) |
| `stempy/reader.cpp`, `reader.h` | StreamReader, Iteration, SectorReader, BlockPipeline, RawFiles, FilePipeline (with image/\_\_init\_\_.py:267-328), SectorFile, SectorName, SortedMap, ThreadedReader, MultiPass, SectorStreams, ByteCounting, Hdf5 | operating system errors other than missing and cut files |
| `stempy/reader_mpi.cpp`, `electron_mpi.cpp` | Mpi, Archive, MpiCounting, MpiBytes | the transport; collective calls are assumed to deliver |
| `thirdparty/ThreadPool` | Pool | – |
| `thirdparty/least-squares-cpp` | LeastSquares (exact arithmetic), Angle | Eigen's matrices are functions, its solvers a parameter; output to the screen (verbose); rounding in the optimizers |
| `h5cpp/h5readwrite.cpp`, `hidcloser.h` | Hdf5, H5Read (contents of data sets), Handles (identifiers and control flow of all functions), TypedFile (types, attributes, groups; with `h5typemaps.h`) | – |
| `python/image.cpp`, `io.cpp`, `pyreader.*` | NumpyMemory, PyReader, PyElements, PyCount, Gil, CountMetadata | registration of the other classes |
| `python/stempy/image/__init__.py` | PyImage, RoundedCom and RoundedMean (floating point), PyStem, PyHistogram, PyCount, Phase, SafeCast, CountMetadata | plotting (850-899) |
| `python/stempy/io/__init__.py` | Iteration, PyReader, PyFrames, RawFile, ReaderFactory | – |
| `python/stempy/io/sparse_array.py` | SparseArray, SparseFile, Numpy, NumpyAdvanced, SparseDtype (element types), SparseMean (`mean` rounded), SparseObjects (storage) | warnings |
| `python/stempy/io/compatibility.py` | Compat | – |
| `python/stempy/contrib/__init__.py` | ScanPath | negative numbers |
| `python/stempy/pipeline/__init__.py` | Pipeline | – |
| `examples/vacuum_scan_subtract.ipynb` | Descan | loading, plotting, fit of a plane; filter and interpolation are parameters |
| `examples/radial_sum_display.ipynb` | PyImage (the sums over bins are in C109) | loading, plotting |
| `examples/electron_count.py` | Example (choice of the output file) | argument parsing, messages |

`Model/EndToEnd` combines `MultiPass`, `CountingReader`, `Electron`, `PyImage`, `SparseFile` and `Image` (C85); `Model/ByteCounting` starts the same at the bytes
of the files (C90); `Model/MpiCounting` runs `CountingReader` on several ranks with the messages of `Mpi` (C91); `Model/MpiBytes` starts that at the bytes of the files (C105). There MPI is external: messages arrive
unchanged and in order, `MPI_Send` may return early, and the sample blocks arrive as they are (their bytes are C35, C36).

`static` limits that hold throughout: rounding of floating point numbers is modelled only in C56, C77, C92, C94–C98, C102, C106 and C107 (C07, C14, C41, C50, C57, C69, C74 are
about exact arithmetic; for C12, C14 and C15 the rounded loops are those of C92); memory exhaustion, signals and process death are not modelled; weak memory effects are not
modelled beyond flagging unsynchronised conflicting accesses as races in the machines named above.

## Findings

Behaviour of the code that contradicts a property (each has a theorem; its name is in the note of the property in
`MANIFEST.json`) or its documentation.

* Masks: `width * height` wraps at 2^32 (C01). Two frames at one position: the dense STEM image depends on the schedule
  (C02). Image numbers outside of the scan are written out of bounds (C03, C08).
* `maximalPoints`: a side of 65536 divides by zero; a 1×1 frame is always an event; a negative background threshold
  makes zero pixels events (C10–C12).
* Block-wise counting without dark reference reads a null pointer (C12, C72_no_dark). For `uint16_t` the block-wise and
  streaming paths subtract the dark reference differently (C15).
* Row dark correction swaps width and height (C14); the median of an empty half row is undefined. A half row with statistic zero, as in
  every frame with a missing sector, gives NaN: without gain this is undefined, with a gain no electron next to the missing sector
  is counted. NaN gains hide the neighbours of their pixels (C86).
* Block-wise counting of sector files: the rewind after the blocks for the thresholds keeps incomplete frames. Their positions are then
  returned twice, the second frame replaces the first, and the electrons of the sectors that were read first are lost (C87).
* All blocks of format 2 have the image numbers 0 to 1599 (reader.cpp:162-165 resets the number of the first image): of a file with
  several blocks, only the frames of the last block are in the result of counting (C88).
* The default reader and the multi-pass reader give different results for sector files whose records are not in step, for the same thresholds (C89, because of C87).
* With several MPI ranks every rank waits for its own share of the sample frames, so the call never returns if the positions of one rank have too few complete
  frames, although the scan has enough; and with three or more ranks and fewer sample blocks than ranks, ranks without samples read `sampleBlocks[0]` (C91).
* The priority queue of the single-pass threaded reader does not bound the memory: while a thread is slow with one file, the others read all other files to
  their ends, and all their frames are kept in the cache (C93, `C93_memory_false`).
* The histogram of a STEM image can lose all pixels of the largest value: the last bin edge is computed as `min + numBins * length`, which is below `max`
  for example with 49 bins over a range of a power of two (C94, `C94_false`). numpy avoids this by setting the last edge to the maximum.
* Rounding decides in com_sparse with crop_to and no com: five events can lie such that one is at exactly the radius from their center of mass, and then
  version 1 returns NaN where version 0 returns a center, or version 0 drops events which version 1 keeps (C95, `C95_false`, `C95_v0_false`).
* The histogram of `calculateThresholds` is written out of bounds in double precision too, for every rounding mode (C97, `C97_false`).
* `getContainer` with 2^31 - 1 bins overflows its loop variable (`C94_overflow`); with no bins it returns one NaN edge without an error (`C98_errors`).
* A call that raises an error leaves the reader partly read; after a rewind the sectors in the cache are used again, and for example an average counts a position twice (`C99_failed_false`). `calculate_average` and `maximum_diffraction_pattern` of a reader that was read to its end use the end iterator (`C99_session`).
* thirdparty/least-squares-cpp (in the search path, but stempy calls Eigen's solver): Armijo backtracking returns the smallest length unseen (`C100_armijo_min_false`) and may not return with the lower bound 0 (`C100_armijo_forever_false`); the increasing search ignores `maxIt` (`C100_iterations_false`), returns bounds unseen (`C100_increasing_min_false`, `C100_increasing_max_false`), and `setBeta` asserts the old factor (`C100_beta_false`).
* thirdparty/least-squares-cpp: Levenberg-Marquardt with a limit makes the last step though it was rejected (`C101_limit_false`), and with finite differences or lambda 0 may not return, whatever the limit of the iterations is (`C101_lm_returns_false`, `C101_lambda_false`); gradient descent with its default damping does not return for c x with c² > 2 (`C101_descent_false`).
* thirdparty/least-squares-cpp: `normalizeAngle` does not return for angles above 2^56 or infinite ones (`C102_returns_iff`, `C102_infinite_false`). `pi()` is defined in the header without `inline`, so two translation units that include it cannot be linked (not modelled).
* h5cpp: `createDataSet` ignores a failure of `H5Pset_chunk` and then makes a data set without chunks (`C103_chunks_false`); `readData` ignores a failure of `H5Sselect_hyperslab` (`C103_select_false`); `attributeType` and `dataType` take a failing `H5Tequal` for equality and report the first type of the table (`C103_type_false`); `children` sets `ok` though the list could not be read (`C103_children_false`).
* `stempy.io.reader`: `backend` and `options` are ignored for all versions but 4 and 5 (`C104_backend_false`), options also without a backend (`C104_options_false`); unknown versions up to 255 make a reader (`C104_version_false`); iterating a threaded reader raises `AttributeError` (`C104_iterate_false`).
* `com_sparse` with `replace_nans` gives a position without events a value below all centers of mass although they are equal (`C106_equal_false`); the error is bounded (`C106_mean`).
* `SparseArray.mean` of an array which is 1 everywhere is 1/2 for 2^25 scan positions (`C107_saturated_false`), differs between NumPy 1 and NumPy 2 for 2^24 + 1 positions (`C107_versions_false`), and raises for every integer `dtype` (`C107_integer_false`).
* `examples/vacuum_scan_subtract.ipynb` exchanges rows and columns when it interpolates the vacuum scan for another scan; the shifts belong to other positions unless both scans are square, and there is no error (`C108_points_iff`).
* Radial sums and annular images differ: rings of the C++ code are closed outside, annuli inside (`C109_dense_iff`), and `radial_sum_sparse` takes the center as (row, column), although the notebook `radial_sum_display` gives (column, row) like for STEM images (`C109_same_pair_iff`).
* `bin_frames` after slicing square frames to frames that are not square gives events outside of the frame; expanding the result raises an IndexError (`C111_sliced_false`).
* If `calculateThresholds` throws on rank 0, the other MPI ranks wait in `MPI_Bcast` forever (`C112_false`, `C112_certain`).
* Counting with the single-pass reader: `complete` is never filled, so the first counter task reads an element of an empty vector, and the call never returns (`C113_false`, `C113_certain`, `C113_undefined`).
* Stream and HDF5 readers have no cache, so a rewind always restores them, also after errors (`C114_stream`, `C114_hdf5`; unlike `C99_failed_false`); an average or maximum with nothing left is undefined (`C114_spent_false`).
* A sector file that ends inside of the pixels is read without an error, the missing pixels being zero (`C115_delivered`); one that ends inside of a header is undefined (`C115_cut_header_false`).
* `reset` does not empty the cache of the threaded reader: a frame with two records is delivered by the second call, each record twice (`C116_two_false`), and with three records in two files or more a freed frame can be used (`C116_freed_iff`). The second future throws (`C116_wait`).
* A `PyReader` converts data of every type to `uint16` modulo 65536 without an error (`C117_integer`, `C117_types_iff`), and reads data with four axes as frames of a wrong size (`C117_four_axes_false`).
* `sum`, `max`, `min` of a sparse array do not use `keepdims` and `initial` over the scan and frame axes (`C118_ignored`, `C118_sum_iff`), `mean` never does (`C118_mean_iff`), and `max`, `min` with the documented argument `dtype` raise `TypeError` over other axes (`C118_dtype_false`).
* `gatherBlocks` checks the total size of the sample blocks after the sum of the displacements has overflowed: with 102 or more full blocks of 576 x 576 pixels on several ranks the behaviour is undefined (`C119_total_false`, `C119_full_false`).
* `gatherScanMap` adds the sizes of the messages as `int`s without a check: with four ranks, one sector on each, undefined behaviour for scans of 2731 x 2731 positions and more (`C120_four_false`).
* STEM images of sparse data are 65535 times those of the same data as dense frames or as a virtual dark field (`C110_dense`, `C110_scale_iff`, `C110_apertures`), and `virtual_darkfield` takes columns for the documented rows (`C110_rows_iff`).
* Single precision: with a gain reference, neighbouring pixels with different values can be rounded to the same value, and then neither is counted; without gain,
  row dark correction truncates a rounded product and so loses electrons at the threshold; the mean of a half row is wrong once its sum reaches 2^24 (C92).
* VTK-m build: events on the border are never found, frames that are not square are searched with the wrong row
  length (C72).
* Thresholds: samples below the histogram range are counted out of bounds; a constant sample makes an empty histogram
  (C57). Two distinct bins do not determine the fit (C74_two_bins).
* Streaming counting: hangs with fewer complete blocks than `threshold_num_blocks`, and with the single-pass threaded
  reader always (C18); zero blocks is undefined; two frames at one position race (C19); exceptions of the workers are
  swallowed; an exception while computing thresholds unwinds while workers use the locals.
* `ThreadPool(0)` never runs its tasks (C20). `radialSum` releases its result before the pool is joined (C58);
  `createSTEMImages` leaks the masks on an error.
* Stream reader: a cut in a file other than the last is not noticed (C22); version 1 with more than 1014 images per block
  is undefined.
* Sector readers: cut headers give uninitialised values; a sector number above 3 writes out of bounds; `reset` keeps the
  cache (C26); frames with fewer than four sectors are dropped silently (C24); more than four records of a frame number
  use freed memory (C27); busy waiting. The multi-pass reader: a second `readAll` delivers nothing (C31), a cut last record is still
  indexed, positions outside of the scan are undefined.
* `dataCaptured` counts cut records, and is 0/0 without records (C32).
* HDF5 cube output uses the first image number of a block for all its images; `width * height` overflows (C33).
* MPI: an empty share of the sample is undefined, the size check comes after the overflow (C34, C35).
* `PyReader`: block size 0 never ends; too few scan positions are undefined (C37, C66); the view of a block has wrong
  strides for frames that are not square (C38).
* `SparseArray`: duplicates make sums differ from the dense array (C40, C41); `bin_frames` is wrong for every frame that
  is not square (C43); `a[..., 0]` selects a scan axis, repeated indices lose events, axis order differs from NumPy for
  an integer and an array separated by a slice (C44); metadata keys with `/` are split (C54); flyback removal with
  several frames per position loses frames (C48); selections larger than the array are not denied (C49).
* Center of mass and dark field use `event // frame_shape[0]`: wrong row for every frame that is not square (C50, C51);
  centers 65536 away wrap. `filter_bad_sectors` gives NaN in the first row and column (C53).
* `com_sparse` and `com_dense` give (x, y), `phase_from_com` expects (y, x) (C69).
* File names: prefixes of scan ids and numbers match, the standard suffix matches others, scan numbers are ignored beside a scan
  id, six-digit scan numbers are not found (C55); later results of the example script are never found (C75).
* `_safe_cast`: float64 averages not representable in float32 are refused; signed to unsigned passes (C56).
* Strides are ignored for dark references, gains, cropped frames and event arrays (C61); one-element dark
  references and gains are ignored; the size of the dark reference is never checked.
* `electron_count` in the block-wise mode: `frame_shape` not reversed (C59), `StopIteration` on short data and on every second
  call, values of arrays derived from an average are ignored (C70). `calculate_thresholds` with a one-element gain shifts
  its arguments; `maximum_diffraction_pattern` with a dark reference always raises (C71).
* `create_stem_images` with an event array and no scan dimensions is undefined (C67).
* Pipeline decorators: positional arguments collide with defaults; decorating twice shares the parameters (C68).
* `calculate_thresholds` releases the lock of Python before its array arguments are destroyed: a count of references can be lost and
  an array freed while in use (C76).
* Reductions: float32 means lose events beyond 2^24 (`mean`), uint8 maxima wrap with 256 frames per position (C77).
* `setAttribute` with a string never closes the type it makes; a moved `HIDCloser` does not close (C78).
* `bin_scans` shares the arrays of events with the original; repeated indexes give frames which share storage; metadata is lost unless
  the operation is in place (C79).
* `electron_count` with a reader that is not threaded leaves the metadata unfilled: they say that thresholds were calculated and are
  all zero; MPI ranks other than 0 record zero thresholds (C80).
* `H5ReadWrite::attribute` on an attribute with several numbers, as `scan_dimensions` of `to_hdf5`, writes behind its variable; data sets of
  2^31 elements overflow `int` when read; `char` is stored as signed on platforms where it is not; `allDataSets` of a group gives
  names which are not paths of the file; an invalid type is taken for the first of the map (C81).
* With two frames at one scan position two threads can append to the same list while electrons are counted (C82, first seen in C18); with one thread exactly if the last sample is not the last frame of its position (`C82_one_thread_iff`).
* Multi-pass reader: a sector file which was cut in the pixels of a record leaves the fail bit of its stream set; all sectors read from that file afterwards have no pixels, the frames are marked complete, and which frames these are depends on the schedule. The cut frame itself is marked complete too. A file which ends inside a header gives indeterminate indices (C83).
* If the fit of the background does not converge, `electronCount` is left by the exception while the workers still have references to its variables: with more frames than samples, which is the normal case, this always ends in undefined behaviour (C84).
* HDF5 reading: the default count loses the last strided element; a stride of 0 and overflow are not detected (C64).

## Tests of the theorems

`seeded/LOG.jsonl` has one line per wrong program: the definition edited, the edit, the claim it breaks, the theorems
whose proofs failed, and the theorems added or tightened when none did. A failing helper lemma counts for the property
theorems that depend on it.

## Axioms per theorem

(`tools/axioms.py`; prefix `Stempy.Props.` omitted)

* **none** (3): `C01_wraps`, `Stempy.RawFile.C66_missing`, `Stempy.RawFile.C66_twice`
* **propext** (45): `Stempy.Compat.C39_empty`, `Stempy.Compat.C39_v1_positions`, `Stempy.Gil.C76_arguments_false`, `Stempy.Gil.C76_arguments_unlocked`, `Stempy.Numpy.C45_slice_zero`, `Stempy.Numpy.axesBefore_eq`, `Stempy.Objects.C79_repeated_false`, `C03_out_of_range`, `C05_sparse_error`, `C23_rewind`, `C27_race`, `C28_out_of_scan`, `C38_wide_wrong`, `C58_radial_false`, `MpiThrow.C112_left`, `Stempy.PyImage.C51_mask_shape`, `Stempy.PyImage.C59_in_place_false`, `Stempy.PyImage.C59_sliced_false`, `Stempy.RawFile.C66_fallback`, `Stempy.RawFile.C66_stem`, `Stempy.ReaderFactory.C104_options_false`, `Stempy.ReaderFactory.C104_unknown`, `Stempy.ScanPath.C55_errors`, `Stempy.ScanPath.C55_number_ignored`, `Stempy.ScanPath.C55_version0_false`, `Stempy.ScanPath.C55_version0_number_false`, `Stempy.ScanPath.C55_version0_suffix_false`, `Stempy.Sparse.C40_duplicate_event`, `Stempy.Sparse.C44_duplicates_false`, `Stempy.Sparse.C44_ellipsis_false`, `Stempy.Sparse.C44_separated_false`, `Stempy.Sparse.C46_ravel`, `Stempy.Sparse.C49_larger`, `Stempy.Sparse.C49_never_full`, `Stempy.Sparse.C77_uint8_false`, `Stempy.SparseFile.C48_v2_false`, `Stempy.SparseFile.C48_v2_order_false`, `Stempy.StreamReader.C65_prefix`, `Stempy.StreamReader.C65_same_partial`, `Stempy.StreamingThrow.C84_asleep`, `Stempy.StreamingThrow.C84_partial`, `Stempy.Strided.C61_contiguous`, `Stempy.Strided.C61_one_element`, `Stempy.TypedFile.C81_no_attribute`, `Stempy.Vtkm.C73_stem_exists`
* **propext, Classical.choice, Quot.sound** (703): `Stempy.Compat.C39_array`, `Stempy.Compat.C39_v1`, `Stempy.CountMetadata.C80_classic_false`, `Stempy.CountMetadata.C80_classic_metadata_false`, `Stempy.CountMetadata.C80_file`, `Stempy.CountMetadata.C80_rank_false`, `Stempy.CountMetadata.C80_rank_partial`, `Stempy.CountMetadata.C80_reproducible`, `Stempy.CountMetadata.C80_statistics`, `Stempy.Descan.C108_center`, `Stempy.Descan.C108_centered_partial`, `Stempy.Descan.C108_dense`, `Stempy.Descan.C108_experiment`, `Stempy.Descan.C108_lengths`, `Stempy.Descan.C108_lost`, `Stempy.Descan.C108_lost_false`, `Stempy.Descan.C108_points_iff`, `Stempy.Descan.C108_round`, `Stempy.Descan.C108_vacuum`, `Stempy.EvenReads.C93_cache`, `Stempy.EvenReads.C93_false`, `Stempy.EvenReads.C93_memory`, `Stempy.EvenReads.C93_memory_false`, `Stempy.EvenReads.C93_partial`, `Stempy.EvenReads.C93_wait`, `Stempy.Example.C75_digits`, `Stempy.Example.C75_found`, `Stempy.Example.C75_fresh`, `Stempy.Example.C75_name`, `Stempy.Example.C75_runs`, `Stempy.Example.C75_terminates`, `Stempy.FloatPixels.C86_dark_false`, `Stempy.FloatPixels.C86_false`, `Stempy.FloatPixels.C86_gain_false`, `Stempy.FloatPixels.C86_infinite`, `Stempy.FloatPixels.C86_mean`, `Stempy.FloatPixels.C86_median`, `Stempy.FloatPixels.C86_missing_false`, `Stempy.FloatPixels.C86_missing_sector_false`, `Stempy.FloatPixels.C86_no_gain_undefined`, `Stempy.FloatPixels.C86_plain`, `Stempy.FloatPixels.C86_plain_partial`, `Stempy.FloatPixels.C86_rowdark`, `Stempy.FloatPixels.C86_rowdark_partial`, `Stempy.GaussFit.C74_jacobian`, `Stempy.GaussFit.C74_residuals`, `Stempy.GaussFit.C74_sign`, `Stempy.GaussFit.C74_two_bins`, `Stempy.GaussFit.C74_unique`, `Stempy.Gil.C76_alive_partial`, `Stempy.Gil.C76_counts_partial`, `Stempy.Gil.C76_exclusive`, `Stempy.Gil.C76_lock_partial`, `Stempy.Gil.C76_progress`, `Stempy.Handles.C103_children_false`, `Stempy.Handles.C103_chunks_false`, `Stempy.Handles.C103_exact`, `Stempy.Handles.C103_select_false`, `Stempy.Handles.C103_setAttribute`, `Stempy.Handles.C103_true_partial`, `Stempy.Handles.C103_type_false`, `Stempy.Handles.C103_writes`, `Stempy.Handles.C78_call_partial`, `Stempy.Handles.C78_life_partial`, `Stempy.Handles.C78_no_strings`, `Stempy.Handles.C78_reset`, `Stempy.Handles.C78_string_false`, `Stempy.Hdf5.C64_default_false`, `Stempy.Hdf5.C64_default_partial`, `Stempy.Hdf5.C64_read`, `Stempy.Hdf5.C64_round_trip`, `Stempy.Hdf5.C64_whole`, `Stempy.MpiSizes.C119_agrees`, `Stempy.MpiSizes.C119_exception_iff`, `Stempy.MpiSizes.C119_full_false`, `Stempy.MpiSizes.C119_ok_iff`, `Stempy.MpiSizes.C119_one_message`, `Stempy.MpiSizes.C119_right_partial`, `Stempy.MpiSizes.C119_total_false`, `Stempy.MpiSizes.C120_four_false`, `Stempy.MpiSizes.C120_four_partial`, `Stempy.MpiSizes.C120_iff`, `Stempy.MpiSizes.C120_small_partial`, `Stempy.MpiSizes.C120_table`, `Stempy.MpiSizes.C120_total_false`, `Stempy.Numpy.C45_index`, `Stempy.Numpy.C45_int`, `Stempy.Numpy.C45_selection`, `Stempy.Numpy.C45_slice_down`, `Stempy.Numpy.C45_slice_up`, `Stempy.Objects.C79_bin_frames`, `Stempy.Objects.C79_bin_frames_values`, `Stempy.Objects.C79_bin_scans_partial`, `Stempy.Objects.C79_in_place`, `Stempy.Objects.C79_metadata_false`, `Stempy.Objects.C79_own_frames`, `Stempy.Objects.C79_slice`, `Stempy.Objects.C79_slice_metadata`, `Stempy.Objects.C79_values`, `Stempy.Phase.C69_exact`, `Stempy.Phase.C69_mean`, `Stempy.Phase.C69_offset`, `Stempy.Phase.C69_order`, `Stempy.Phase.C69_phase`, `Angle.C102_equals`, `Angle.C102_equals_finite`, `Angle.C102_equals_inf_false`, `Angle.C102_equals_rounded`, `Angle.C102_equals_self`, `Angle.C102_error`, `Angle.C102_exact`, `Angle.C102_infinite_false`, `Angle.C102_iszero`, `Angle.C102_large_false`, `Angle.C102_nan`, `Angle.C102_pi`, `Angle.C102_returns_iff`, `Angle.C102_rounded_false`, `Angle.C102_small`, `Angle.C102_unique`, `C01_default_center`, `C01_mask`, `C02_dense`, `C02_duplicate_depends_on_schedule`, `C02_run_exists`, `C03_sparse`, `C03_sparse_exact`, `C04_dense`, `C04_masks`, `C04_sparse`, `C05_dense_error`, `C05_dense_images`, `C05_dense_no_error`, `C05_dense_size`, `C06_bins`, `C06_container_total`, `C06_total`, `C07_average`, `C07_average_order`, `C08_conservation`, `C08_radial`, `C08_radial_total`, `C09_maximum`, `C09_maximum_order`, `C105_few_samples_false`, `C105_hang`, `C105_headers_progress`, `C105_headers_termination`, `C105_iff`, `C105_images_gain_partial`, `C105_images_partial`, `C105_images_rowdark_partial`, `C105_progress`, `C105_race_free`, `C105_same_images_partial`, `C105_termination`, `C106_equal_false`, `C106_mean`, `C106_others`, `C107_closest`, `C107_denied`, `C107_integer_all`, `C107_integer_false`, `C107_mean`, `C107_saturated`, `C107_saturated_false`, `C107_versions_false`, `C10_maxima`, `C11_bound`, `C11_not_adjacent`, `C12_classic_gain`, `C12_classic_no_dark_undefined`, `C12_classic_u16`, `C12_negative_threshold_exception`, `C12_rowdark_gain`, `C12_single_pixel_exception`, `C12_stream_gain`, `C12_stream_u16`, `C13_classic`, `C13_duplicate_lost`, `C13_events`, `C13_once`, `C14_mean`, `C14_median`, `C14_nonsquare_false`, `C14_not_square`, `C14_rowdark_gain_exact`, `C14_rowdark_gain_partial`, `C14_rowdark_u16_exact`, `C14_rowdark_u16_partial`, `C14_width_one_median_undefined`, `C15_dark_above`, `C15_dark_above_pixel_disagrees`, `C15_fractional_dark_disagrees`, `C15_fractional_false`, `C15_gain_partial`, `C15_iff`, `C15_real_partial`, `C15_u16_partial`, `C15_values`, `C16_exactly_once`, `C16_stored`, `C18_hang`, `C18_progress`, `C18_single_pass_reader`, `C18_termination`, `C18_zero_blocks`, `C19_all_samples`, `C19_iff`, `C19_one_appender`, `C19_race`, `C19_race_free_partial`, `C20_termination`, `C21_round_trip`, `C22_middle_file_cut`, `C22_missing_file`, `C22_truncation`, `C24_assembly`, `C24_bad_sector`, `C24_coordinates`, `C24_count`, `C26_rewind_after_end`, `C26_rewind_exact`, `C26_rewind_false`, `C26_rewind_iff`, `C26_rewind_partial`, `C27_exactly_once`, `C27_exists`, `C27_freed_iff`, `C27_many_records`, `C27_many_records_exists`, `C27_pixels_v4`, `C27_pixels_v5`, `C27_progress`, `C27_stale`, `C27_termination`, `C28_exists`, `C28_index`, `C28_progress`, `C28_schedule_independent`, `C28_termination`, `C29_content`, `C29_exactly_once`, `C29_exists`, `C29_progress`, `C29_termination`, `C30_error`, `C30_frames`, `C31_after_access_partial`, `C31_second_pass_empty`, `C32_captured_partial`, `C32_cut_counted`, `C32_cut_header`, `C32_full_scan`, `C32_missing_file`, `C33_cells`, `C33_cube`, `C33_cube_outside`, `C33_cube_several`, `C33_frames`, `C35_events`, `C35_events_count`, `C35_events_outside`, `C35_exactly_once`, `C35_exists`, `C35_index`, `C35_merged`, `C35_union`, `C37_all_frames`, `C37_block_count`, `C37_hdf5`, `C57_constant_sample`, `C57_histogram_partial`, `C57_out_of_bounds`, `C57_out_of_bounds_reachable`, `C57_peak`, `C57_sample_dark`, `C57_sample_gain`, `C57_sampling`, `C57_statistics`, `C57_thresholds`, `C58_progress`, `C60_cut`, `C60_cut_pixels`, `C60_files`, `C60_part`, `C60_round_trip`, `C60_stream`, `C82_exactly_once`, `C82_exists`, `C82_files`, `C82_hang`, `C82_one_thread_iff`, `C82_progress`, `C82_race_false`, `C82_race_free_partial`, `C82_stored`, `C82_termination`, `C85_exact`, `C85_exists`, `C85_images`, `C85_images_gain`, `C85_images_rowdark`, `C85_returns`, `C85_same_images`, `C87_bytes_partial`, `C87_exact`, `C87_false`, `C87_images_partial`, `C87_images_u16_partial`, `C87_in_step`, `C87_lost`, `C87_sample`, `C88_empty`, `C88_format2`, `C88_hdf5`, `C88_hdf5_sample`, `C88_hdf5_u16`, `C88_options`, `C88_stream`, `C88_stream_sample`, `C88_stream_u16`, `C89_false`, `C89_gain_partial`, `C89_in_step`, `C89_lost`, `C89_u16_partial`, `C90_backends`, `C90_empty_first`, `C90_exists`, `C90_hang`, `C90_headers_progress`, `C90_headers_termination`, `C90_images`, `C90_images_gain`, `C90_images_rowdark`, `C90_progress`, `C90_race_free`, `C90_termination`, `C91_empty_share_false`, `C91_exactly_once_partial`, `C91_exists`, `C91_few_samples_false`, `C91_files_hang`, `C91_files_partial`, `C91_hang`, `C91_iff`, `C91_images_gain_partial`, `C91_images_partial`, `C91_images_rowdark_partial`, `C91_no_failure`, `C91_progress`, `C91_race_free_partial`, `C91_returns`, `C91_same_images_partial`, `C91_termination`, `C94_blank_false`, `C94_counters`, `C94_counters_partial`, `C94_divides`, `C94_down`, `C94_false`, `C94_iff`, `C94_lost`, `C94_overflow`, `C94_partial`, `C94_pow_two`, `C94_total`, `C95_center_partial`, `C95_false`, `C95_few_partial`, `C95_fraction_false`, `C95_no_crop`, `C95_v0_false`, `C96_average`, `C96_average_empty`, `C96_average_sharp`, `C96_average_sharp_value`, `C96_mask`, `C96_mask_exact`, `C96_radial`, `C96_radial_sharp`, `C97_constant`, `C97_deviation`, `C97_empty_false`, `C97_false`, `C97_histogram_partial`, `C97_mean`, `C97_out_of_bounds`, `C97_single_false`, `C97_variance`, `C97_variance_single`, `C98_errors`, `C98_exact`, `C98_histogram`, `C98_run_exists`, `C98_same`, `C98_total`, `C99_bytes`, `C99_bytes_false`, `FileSession.C114_blocks`, `FileSession.C114_hdf5`, `FileSession.C114_hdf5_exists`, `FileSession.C114_no_dimensions`, `FileSession.C114_spent_false`, `FileSession.C114_stream`, `FileSession.C114_stream_exists`, `LeastSquares.C100_armijo`, `LeastSquares.C100_armijo_forever_false`, `LeastSquares.C100_armijo_min_false`, `LeastSquares.C100_armijo_partial`, `LeastSquares.C100_armijo_result`, `LeastSquares.C100_armijo_returns_iff`, `LeastSquares.C100_beta_bounds_false`, `LeastSquares.C100_increasing`, `LeastSquares.C100_increasing_max_false`, `LeastSquares.C100_increasing_min_false`, `LeastSquares.C100_increasing_partial`, `LeastSquares.C100_iterations`, `LeastSquares.C100_iterations_false`, `LeastSquares.C101_armijo`, `LeastSquares.C101_damped`, `LeastSquares.C101_descent_false`, `LeastSquares.C101_differences`, `LeastSquares.C101_differences_false`, `LeastSquares.C101_lambda_false`, `LeastSquares.C101_limit_false`, `LeastSquares.C101_limit_returns`, `LeastSquares.C101_linear`, `LeastSquares.C101_lm_returns`, `LeastSquares.C101_lm_returns_false`, `LeastSquares.C101_monotone`, `LeastSquares.C101_result`, `LeastSquares.C101_returns`, `MpiThrow.C112_certain`, `MpiThrow.C112_exists`, `MpiThrow.C112_false`, `MpiThrow.C112_iff`, `MpiThrow.C112_no_exception`, `MpiThrow.C112_progress`, `MpiThrow.C112_termination`, `PyElements.C117_floating`, `PyElements.C117_fortran_false`, `PyElements.C117_four_axes_false`, `PyElements.C117_kept_iff`, `PyElements.C117_pass`, `PyElements.C117_pixel`, `PyElements.C117_two_axes_false`, `PyElements.C117_types_iff`, `RadialAnnulus.C109_dense`, `RadialAnnulus.C109_dense_false`, `RadialAnnulus.C109_dense_iff`, `RadialAnnulus.C109_last_bin_false`, `RadialAnnulus.C109_same_pair_iff`, `RadialAnnulus.C109_sparse`, `RawFiles.C99_cut_false`, `RawFiles.C99_failed_false`, `RawFiles.C99_frames`, `RawFiles.C99_session`, `RawFiles.C99_session_exists`, `RawFiles.C99_twice`, `SameImages.C110_apertures`, `SameImages.C110_dense`, `SameImages.C110_rows_iff`, `SameImages.C110_scale_iff`, `SameImages.C110_sum`, `SectorPasses.C115_bytes`, `SectorPasses.C115_cut_header_false`, `SectorPasses.C115_delivered`, `SectorPasses.C115_entries`, `SectorPasses.C115_exists`, `SectorPasses.C115_filled`, `SectorPasses.C115_passes`, `SparseSession.C111_bin_twice`, `SparseSession.C111_bins_commute`, `SparseSession.C111_session_partial`, `SparseSession.C111_size`, `SparseSession.C111_sliced_false`, `SparseSession.C111_sum_partial`, `SparseSession.C111_total_partial`, `ThreadedAgain.C116_complete`, `ThreadedAgain.C116_exact`, `ThreadedAgain.C116_exists`, `ThreadedAgain.C116_freed_iff`, `ThreadedAgain.C116_passes_exact`, `ThreadedAgain.C116_two_false`, `ThreadedCounting.C113_certain`, `ThreadedCounting.C113_exactly_once`, `ThreadedCounting.C113_exists`, `ThreadedCounting.C113_false`, `ThreadedCounting.C113_goes_on`, `ThreadedCounting.C113_progress`, `ThreadedCounting.C113_race_free_partial`, `ThreadedCounting.C113_termination`, `ThreadedCounting.C113_undefined`, `blocks_order`, `Stempy.PyCount.C70_array`, `Stempy.PyCount.C70_average`, `Stempy.PyCount.C70_derived_false`, `Stempy.PyCount.C70_image`, `Stempy.PyCount.C70_no_image_false`, `Stempy.PyCount.C70_refused`, `Stempy.PyCount.C70_twice_false`, `Stempy.PyCount.C71_maximum`, `Stempy.PyCount.C71_maximum_dark_false`, `Stempy.PyCount.C71_one_element_false`, `Stempy.PyCount.C71_thresholds_partial`, `Stempy.PyFrames.C63_all_false`, `Stempy.PyFrames.C63_errors`, `Stempy.PyFrames.C63_read_one_partial`, `Stempy.PyFrames.C63_read_partial`, `Stempy.PyImage.C50_dense`, `Stempy.PyImage.C50_large_center`, `Stempy.PyImage.C50_not_square`, `Stempy.PyImage.C50_shortcut`, `Stempy.PyImage.C50_square_partial`, `Stempy.PyImage.C50_versions_agree`, `Stempy.PyImage.C51_darkfield_partial`, `Stempy.PyImage.C51_mask`, `Stempy.PyImage.C51_not_square`, `Stempy.PyImage.C51_one_dimension`, `Stempy.PyImage.C51_sum`, `Stempy.PyImage.C51_sum_outside`, `Stempy.PyImage.C52_bins`, `Stempy.PyImage.C52_one_bin`, `Stempy.PyImage.C52_outside`, `Stempy.PyImage.C52_total`, `Stempy.PyImage.C53_border_false`, `Stempy.PyImage.C53_filter_partial`, `Stempy.PyImage.C53_isolated`, `Stempy.PyImage.C59_in_place_witness`, `Stempy.PyImage.C59_not_square`, `Stempy.PyImage.C59_square_partial`, `Stempy.PyImage.C59_stem`, `Stempy.PyStem.C67_dense`, `Stempy.PyStem.C67_events`, `Stempy.PyStem.C67_no_scan_false`, `Stempy.PyStem.C67_run_exists`, `Stempy.PyStem.C67_same`, `Stempy.PyStem.C67_saved`, `Stempy.RawFile.C66_few_positions`, `Stempy.RawFile.C66_round_trip`, `Stempy.ReaderFactory.C104_iterate_false`, `Stempy.ReaderFactory.C104_missing`, `Stempy.ReaderFactory.C104_partial`, `Stempy.ReaderFactory.C104_threads`, `Stempy.ReaderFactory.C104_version_false`, `Stempy.RoundedCounting.C92_classic_false`, `Stempy.RoundedCounting.C92_classic_u16_partial`, `Stempy.RoundedCounting.C92_classic_u16_values`, `Stempy.RoundedCounting.C92_dark_false`, `Stempy.RoundedCounting.C92_exact_partial`, `Stempy.RoundedCounting.C92_gain_partial`, `Stempy.RoundedCounting.C92_gain_values`, `Stempy.RoundedCounting.C92_lost_false`, `Stempy.RoundedCounting.C92_mean`, `Stempy.RoundedCounting.C92_mean_false`, `Stempy.RoundedCounting.C92_mean_u16`, `Stempy.RoundedCounting.C92_median`, `Stempy.RoundedCounting.C92_no_gain_undefined`, `Stempy.RoundedCounting.C92_null_false`, `Stempy.RoundedCounting.C92_paths_iff`, `Stempy.RoundedCounting.C92_paths_partial`, `Stempy.RoundedCounting.C92_rowdark_false`, `Stempy.RoundedCounting.C92_rowdark_gain`, `Stempy.RoundedCounting.C92_rowdark_gain_partial`, `Stempy.RoundedCounting.C92_rowdark_u16`, `Stempy.RoundedCounting.C92_rowdark_u16_partial`, `Stempy.RoundedCounting.C92_rowdark_values`, `Stempy.RoundedCounting.C92_sound_partial`, `Stempy.RoundedCounting.C92_stream_u16`, `Stempy.RoundedCounting.C92_threshold_false`, `Stempy.RoundedCounting.C92_uniform_partial`, `Stempy.RoundedCounting.C92_zero_statistic_false`, `Stempy.SafeCast.C56_float`, `Stempy.SafeCast.C56_int_partial`, `Stempy.SafeCast.C56_saturating_false`, `Stempy.SafeCast.C56_saturating_witness`, `Stempy.SafeCast.C56_small_int`, `Stempy.SafeCast.C56_unsigned_false`, `Stempy.ScanPath.C55_large_number`, `Stempy.ScanPath.C55_none`, `Stempy.ScanPath.C55_version0_partial`, `Stempy.ScanPath.C55_version1`, `Stempy.ScanPath.C55_version1_found`, `Stempy.SectorName.C62_directory`, `Stempy.SectorName.C62_large`, `Stempy.SectorName.C62_none`, `Stempy.SectorName.C62_none_iff`, `Stempy.SectorName.C62_sector`, `Stempy.SectorStreams.C83_complete_false`, `Stempy.SectorStreams.C83_content`, `Stempy.SectorStreams.C83_exactly_once`, `Stempy.SectorStreams.C83_file_partial`, `Stempy.SectorStreams.C83_first_header`, `Stempy.SectorStreams.C83_headers`, `Stempy.SectorStreams.C83_headers_cut_false`, `Stempy.SectorStreams.C83_progress`, `Stempy.SectorStreams.C83_termination`, `Stempy.SectorStreams.C83_threads_false`, `Stempy.SectorStreams.C83_whole`, `Stempy.Sparse.C40_sum`, `Stempy.Sparse.C41_max_frame_partial`, `Stempy.Sparse.C41_max_scan`, `Stempy.Sparse.C41_mean`, `Stempy.Sparse.C41_min_frame`, `Stempy.Sparse.C41_min_scan`, `Stempy.Sparse.C41_other`, `Stempy.Sparse.C42_bin_scans`, `Stempy.Sparse.C42_refused`, `Stempy.Sparse.C42_total`, `Stempy.Sparse.C43_bin_frames_partial`, `Stempy.Sparse.C43_events`, `Stempy.Sparse.C43_not_square`, `Stempy.Sparse.C44_array_partial`, `Stempy.Sparse.C44_basic`, `Stempy.Sparse.C44_basic_dense`, `Stempy.Sparse.C44_dense`, `Stempy.Sparse.C44_duplicates_lost`, `Stempy.Sparse.C44_ellipsis_empty`, `Stempy.Sparse.C44_ellipsis_frame_partial`, `Stempy.Sparse.C44_ellipsis_scan`, `Stempy.Sparse.C44_mixed`, `Stempy.Sparse.C44_pairs_dense_partial`, `Stempy.Sparse.C44_pairs_partial`, `Stempy.Sparse.C44_refused`, `Stempy.Sparse.C44_separated`, `Stempy.Sparse.C44_separated_any_false`, `Stempy.Sparse.C44_sparse`, `Stempy.Sparse.C44_to_dense`, `Stempy.Sparse.C44_too_many`, `Stempy.Sparse.C46_dense`, `Stempy.Sparse.C46_ravel_reshape`, `Stempy.Sparse.C46_reshape`, `Stempy.Sparse.C49_denied`, `Stempy.Sparse.C49_operations`, `Stempy.Sparse.C77_dense`, `Stempy.Sparse.C77_dense_iff`, `Stempy.Sparse.C77_extrema_frame_iff`, `Stempy.Sparse.C77_max_partial`, `Stempy.Sparse.C77_max_scan_iff`, `Stempy.Sparse.C77_mean_frame_false`, `Stempy.Sparse.C77_mean_frame_partial`, `Stempy.Sparse.C77_mean_scan`, `Stempy.Sparse.C77_min_partial`, `Stempy.Sparse.C77_min_scan_iff`, `Stempy.Sparse.C77_round`, `Stempy.Sparse.C77_sum_exact_iff`, `Stempy.Sparse.C77_sum_frame`, `Stempy.Sparse.C77_sum_scan`, `Stempy.SparseFile.C47_one_dimension`, `Stempy.SparseFile.C47_round_trip_partial`, `Stempy.SparseFile.C48_flyback`, `Stempy.SparseFile.C48_flyback_v1`, `Stempy.SparseFile.C54_round_trip`, `Stempy.SparseFile.C54_slash`, `Stempy.SparseKeywords.C118_default_iff`, `Stempy.SparseKeywords.C118_dtype_false`, `Stempy.SparseKeywords.C118_dtype_partial`, `Stempy.SparseKeywords.C118_extremum_iff`, `Stempy.SparseKeywords.C118_initial_iff`, `Stempy.SparseKeywords.C118_mean_iff`, `Stempy.SparseKeywords.C118_other`, `Stempy.SparseKeywords.C118_sum_iff`, `Stempy.StreamReader.C65_calls`, `Stempy.StreamReader.C65_ends`, `Stempy.StreamReader.C65_same`, `Stempy.StreamReader.C65_version_zero_false`, `Stempy.StreamingThrow.C84_all_sampled`, `Stempy.StreamingThrow.C84_false`, `Stempy.StreamingThrow.C84_iff`, `Stempy.StreamingThrow.C84_no_exception`, `Stempy.StreamingThrow.C84_progress`, `Stempy.StreamingThrow.C84_termination`, `Stempy.Strided.C61_block`, `Stempy.Strided.C61_count_partial`, `Stempy.Strided.C61_crop_false`, `Stempy.Strided.C61_fortran_order`, `Stempy.Strided.C61_frames_partial`, `Stempy.Strided.C61_reference_partial`, `Stempy.Strided.C61_transposed_false`, `Stempy.TypedFile.C81_attribute_partial`, `Stempy.TypedFile.C81_char_false`, `Stempy.TypedFile.C81_children`, `Stempy.TypedFile.C81_chunks`, `Stempy.TypedFile.C81_created`, `Stempy.TypedFile.C81_data_partial`, `Stempy.TypedFile.C81_empty_false`, `Stempy.TypedFile.C81_failure`, `Stempy.TypedFile.C81_list`, `Stempy.TypedFile.C81_long_names_false`, `Stempy.TypedFile.C81_relative_false`, `Stempy.TypedFile.C81_size_false`, `Stempy.TypedFile.C81_string`, `Stempy.TypedFile.C81_tree`, `Stempy.TypedFile.C81_vector_false`, `Stempy.Vtkm.C72_border_false`, `Stempy.Vtkm.C72_frame_partial`, `Stempy.Vtkm.C72_no_dark`, `Stempy.Vtkm.C72_preprocess`, `Stempy.Vtkm.C72_search_partial`, `Stempy.Vtkm.C72_square_partial`, `Stempy.Vtkm.C73_radial`
* **propext, Quot.sound** (102): `Stempy.Compat.C39_v1_as_v2`, `Stempy.Compat.C39_v2`, `Stempy.CountMetadata.C80_names`, `Stempy.Gil.C76_arguments_partial`, `Stempy.Gil.C76_bound`, `Stempy.Gil.C76_copy_assign`, `Stempy.Gil.C76_move_assign`, `Stempy.Gil.C76_reset`, `Stempy.Handles.C78_move_false`, `Stempy.Hdf5.C64_outside`, `Stempy.Hdf5.C64_stride_zero`, `Stempy.MpiSizes.indexMessage_length`, `Stempy.Numpy.separated_iff`, `Stempy.Objects.C79_bin_scans_false`, `Stempy.Objects.C79_bin_scans_values`, `Stempy.Pipeline.C68_listed_default`, `Stempy.Pipeline.C68_module`, `Stempy.Pipeline.C68_positional_false`, `Stempy.Pipeline.C68_shared_false`, `C05_sparse_images`, `C08_out_of_scan`, `C10_wide_frame_undefined`, `C13_errors`, `C13_out_of_scan`, `C17_events`, `C17_uniform`, `C20_exactly_once`, `C20_no_lost_wakeup`, `C20_progress`, `C20_rejected`, `C20_shutdown`, `C20_zero_threads`, `C25_frame_v4`, `C25_frame_v5`, `C25_missing_v4`, `C25_missing_v5`, `C25_place_v4`, `C25_place_v5`, `C25_tiling_v4`, `C25_tiling_v5`, `C27_five_records`, `C28_coordinates`, `C29_pixels`, `C30_num_frames`, `C31_second_throws`, `C34_exactly_one`, `C34_reinitialized`, `C34_samples`, `C34_stable`, `C34_zero_share`, `C35_blocks`, `C35_blocks_overflow`, `C36_block`, `C36_cut`, `C36_not_sent`, `C36_too_large`, `C37_few_positions`, `C37_rewind`, `C37_zero_block`, `C38_block_partial`, `C38_block_wrong`, `C38_image`, `C38_radial`, `C38_tall_outside`, `C58_radial_partial`, `C58_stem`, `C82_race_any_false`, `LeastSquares.C100_beta_false`, `LeastSquares.C100_setters`, `LeastSquares.C100_setters_accept`, `LeastSquares.C100_setters_set`, `PyElements.C117_integer`, `ThreadedAgain.C116_wait`, `Stempy.PyCount.C70_threaded`, `Stempy.PyFrames.C63_coordinates`, `Stempy.PyStem.C67_errors`, `Stempy.RawFile.C66_no_overwrite`, `Stempy.ReaderFactory.C104_backend_false`, `Stempy.ReaderFactory.C104_no_files`, `Stempy.ReaderFactory.C104_thread_number`, `Stempy.ReaderFactory.C104_version_range`, `Stempy.ScanPath.C55_found`, `Stempy.ScanPath.C55_several`, `Stempy.SectorStreams.C83_first_header_false`, `Stempy.SectorStreams.C83_in_order`, `Stempy.SectorStreams.C83_random`, `Stempy.SectorStreams.C83_random_partial`, `Stempy.SectorStreams.C83_sticky_false`, `Stempy.Sparse.C41_max_frame_false`, `Stempy.Sparse.C42_one_dimension`, `Stempy.SparseKeywords.C118_ignored`, `Stempy.StreamingThrow.C84_exists`, `Stempy.StreamingThrow.C84_notify_false`, `Stempy.Strided.C61_events_false`, `Stempy.Strided.C61_events_partial`, `Stempy.TypedFile.C81_dims`, `Stempy.TypedFile.C81_invalid_type_false`, `Stempy.TypedFile.C81_paths`, `Stempy.TypedFile.C81_types`, `Stempy.Vtkm.C72_shape_false`, `Stempy.Vtkm.C73_atomic_order`, `Stempy.Vtkm.C73_stem`
