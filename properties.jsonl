{"id": "C01", "title": "Annular mask membership", "statement": "For a detector of width w and height h, the virtual-detector mask built from an inner radius, an outer radius and an optional center has exactly w*h entries in row-major order, and entry (x,y) is 0xFFFF when inner^2 <= (x-cx)^2+(y-cy)^2 < outer^2 and 0 otherwise; a center coordinate that is not given (negative) is replaced by half the corresponding detector dimension rounded half up, independently of the other coordinate.", "quantifier": "all w, h with w*h < 2^32, all radii whose square fits an int, all centers", "why_tests_cant": "Tests compare a few pictures; off-by-one at the open/closed radius or a swapped row/column stride only shows for particular shapes and radii.", "anchors": ["stempy/mask.cpp: createAnnularMask 9-34"]}
{"id": "C02", "title": "Dense STEM image value", "statement": "After a dense STEM image computation returns, every image pixel whose scan position was supplied exactly once equals the sum of the detector values of that frame inside the annulus, and every pixel with no frame is 0, whatever the split of frames into blocks and whatever the order in which the worker threads interleave.", "quantifier": "all frame sets, block partitions, masks and all thread interleavings", "why_tests_cant": "A unit test observes one block layout and one schedule.", "anchors": ["stempy/image.cpp: calculateSTEMValues 40-52, _runCalculateSTEMValues 131-159, createSTEMImages 162-277"]}
{"id": "C03", "title": "Sparse STEM image value", "statement": "The STEM image computed from electron-counted data equals, at each scan position, 65535 times the number of recorded events (summed over all frames of the position, with multiplicity) whose detector position lies inside the annulus.", "quantifier": "all event lists with positions inside the detector, all radii and centers, any number of frames per position", "why_tests_cant": "Event lists are unbounded and tests fix one data set.", "anchors": ["stempy/image.h: calculateSTEMValuesSparse 58-74, createSTEMImages 76-110"]}
{"id": "C04", "title": "Annuli are additive", "statement": "Two adjacent annuli [a,b) and [b,c) around the same center partition the annulus [a,c): masks are disjoint, their union is the big mask, and STEM images (dense and sparse) of the two add up to the image of the large one pixel by pixel.", "quantifier": "all detectors, centers and radii a<=b<=c, all data", "why_tests_cant": "A law over three parameters and all data cannot be enumerated.", "anchors": ["stempy/mask.cpp: createAnnularMask", "stempy/image.cpp: createSTEMImages", "stempy/image.h: createSTEMImages 76-110"]}
{"id": "C05", "title": "STEM argument validation", "statement": "Creating STEM images fails with an error, before touching any image, exactly when there is no input block (dense), when the radius lists are empty, when they differ in length, or when no scan size is known; errors are reported in that fixed order of priority, and otherwise exactly one image per radius pair is produced, in the order given, each of the scan size.", "quantifier": "all argument combinations", "why_tests_cant": "Combination of four independent conditions with all list lengths.", "anchors": ["stempy/image.cpp: createSTEMImages 162-193", "stempy/image.h: createSTEMImages 76-96"]}
{"id": "C06", "title": "Histogram counts every in-range value once", "statement": "The STEM histogram over a strictly increasing list of bin edges counts every image value lying between the first and last edge (both included) in exactly one bin, drops all others, and bin i counts the values v with edge_i <= v < edge_{i+1} (the last bin includes its upper edge).", "quantifier": "all images and all strictly increasing edge lists", "why_tests_cant": "Edge values and data are unbounded; double counting occurs only exactly at edges.", "anchors": ["stempy/image.cpp: getContainer 280-302, createSTEMHistogram 306-333"]}
{"id": "C07", "title": "Average image", "statement": "The average of an image stack is, at every detector pixel, the exact sum over all frames of all blocks divided by the number of frames, and does not depend on how frames are grouped in blocks or on their order.", "quantifier": "all stacks, groupings and orders", "why_tests_cant": "Order/grouping independence ranges over all partitions and permutations.", "anchors": ["stempy/image.cpp: calculateAverage 344-372"]}
{"id": "C08", "title": "Radial sum conserves intensity", "statement": "For every frame the radial profile assigns each detector pixel to exactly one radius (the ceiling of its distance to the center), never indexes outside of the allocated profile, and the profile sums to the total intensity of the frame; the result is the same for every interleaving of the worker threads. Holds when the center lies on the detector, or is defaulted.", "quantifier": "all frames, centers, shapes and thread interleavings", "why_tests_cant": "Out-of-range radii only appear for specific center/shape combinations and races only for specific schedules.", "anchors": ["stempy/image.cpp: radialSumFrame 378-395, radialSumFrames 461-473, radialSum 477-581"]}
{"id": "C09", "title": "Maximum diffraction pattern", "statement": "The maximum diffraction pattern is pointwise the least upper bound of all frames (and 0), independent of frame order and grouping, with the dark reference subtracted once at the end when one is given.", "quantifier": "all stacks, orders, groupings", "why_tests_cant": "Order independence over all permutations.", "anchors": ["stempy/image.cpp: maximumDiffractionPattern 583-626"]}
{"id": "C10", "title": "Events are exactly the strict local maxima", "statement": "The events reported for a frame are exactly the pixels strictly greater than every one of their in-bounds 8-neighbours, each reported once, in increasing row-major order.", "quantifier": "all frames with width and height below 2^16 (the code's index arithmetic is 16 bit) and all pixel values", "why_tests_cant": "Depends on all borders, corners and plateaus for every shape.", "anchors": ["stempy/electron.cpp: mod 332-335, maximalPoints 339-406"]}
{"id": "C11", "title": "Events are never adjacent", "statement": "No two events of a frame are 8-neighbours, and therefore every 2x2 cell of the detector holds at most one event, so a frame has at most ceil(w/2)*ceil(h/2) events.", "quantifier": "all frames", "why_tests_cant": "A bound over all images.", "anchors": ["stempy/electron.cpp: maximalPoints 339-406"]}
{"id": "C12", "title": "Thresholding decides event eligibility", "statement": "Every reported event has, after dark subtraction (and gain), a value strictly above the background threshold and strictly below the x-ray threshold; a pixel at or beyond a threshold is never reported and is treated as 0 when neighbours are compared.", "quantifier": "all frames of at least two pixels with width and height below 2^16, all dark references, gains and thresholds with background threshold >= 0", "why_tests_cant": "Comparison strictness matters only at equality; all frames and references.", "anchors": ["stempy/electron.cpp: electronCount 475-491, electronCount 527-561"]}
{"id": "C13", "title": "Block electron counting places each frame", "statement": "Block-wise electron counting returns one event list per scan position; the list at a position is the event list of the frame with that image number when exactly one frame carries it, empty when none does, and when several frames share the position only the last one read survives (earlier frames are lost). An image number outside the scan is undefined behaviour.", "quantifier": "all block streams", "why_tests_cant": "Ranges over all block sequences and duplicate positions.", "anchors": ["stempy/electron.cpp: electronCount 408-506"]}
{"id": "C14", "title": "Row dark correction touches only its row half", "statement": "With row dark correction each row of the frame is split into a left and a right half (left has floor(width/2) pixels), and every pixel is scaled by the ratio of the optimized mean and the statistic of its own half only, whatever the frame shape.", "quantifier": "all frames, square or not", "why_tests_cant": "Existing data is square (576x576) so a swapped width/height cannot be seen.", "anchors": ["stempy/electron.cpp: applyRowDark 239-312"]}
{"id": "C15", "title": "Dark subtraction agrees between the two counting paths", "statement": "Block-wise and streaming electron counting compute the same events for the same frame, dark reference, gain and thresholds.", "quantifier": "all frames and references", "why_tests_cant": "Differences appear only for dark values with fractional parts or larger than the pixel.", "anchors": ["stempy/electron.cpp: electronCount 475-491, electronCount 527-561"]}
{"id": "C16", "title": "Streaming electron counting counts each frame exactly once", "statement": "When streaming electron counting with threads returns, every frame delivered by the reader has been counted exactly once and its events stored at its scan position, whether it was one of the sample frames used for the thresholds, an incomplete frame, or counted by a worker, and none is stored anywhere else.", "quantifier": "all numbers of workers, all block sets, all thread interleavings", "why_tests_cant": "Interleavings cannot be enumerated by tests.", "anchors": ["stempy/electron.cpp: electronCount 563-836 (countBlock 616-642, counter 644-682, countExtraBlock 760-778)"]}
{"id": "C17", "title": "Uniform number of frames per position", "statement": "The result of streaming electron counting has the same number of frames at every scan position: the largest number of frames seen at any position; missing frames are empty event lists and no events are added, lost or moved by this padding.", "quantifier": "all results", "why_tests_cant": "All shapes of ragged data.", "anchors": ["stempy/electron.cpp: electronCount 801-811"]}
{"id": "C18", "title": "Streaming counting terminates iff enough sample frames exist", "statement": "Streaming electron counting never deadlocks and always makes progress when the data holds at least the requested positive number of threshold sample frames; when it holds fewer complete frames the call never returns.", "quantifier": "all numbers of workers and frames, all schedules", "why_tests_cant": "Deadlock freedom is a statement over all schedules; non-termination cannot be observed by a finite test.", "anchors": ["stempy/electron.cpp: electronCount 644-691"]}
{"id": "C19", "title": "Streaming counting is free of data races on a position's frame list", "statement": "No two threads ever append to the frame list of one scan position at the same time.", "quantifier": "all schedules and block sets", "why_tests_cant": "Data races are schedule dependent.", "anchors": ["stempy/electron.cpp: countBlock 616-642, countExtraBlock 760-778"]}
{"id": "C20", "title": "Thread pool runs every accepted task exactly once", "statement": "Every task accepted by the thread pool is run exactly once, and destroying the pool returns only after all accepted tasks have been run; tasks submitted after shutdown started are rejected with an error; no wake-up is lost, so a queued task always has a worker that is awake or being woken.", "quantifier": "all positive numbers of workers, all numbers of tasks, all schedules including spurious wake-ups", "why_tests_cant": "Lost wake-ups and shutdown races are schedule dependent.", "anchors": ["thirdparty/ThreadPool/ThreadPool.h: ThreadPool 34-60, enqueue 62-84, ~ThreadPool 87-96"]}
{"id": "C21", "title": "Stream reader returns exactly the written blocks", "statement": "Reading a stream written in format version 1, 2 or 3 yields exactly the sequence of headers and pixel data that was written, in order, across file boundaries, and then reports the end of the stream.", "quantifier": "all block sequences, all splits over files at block boundaries, all sizes and values", "why_tests_cant": "Round trip over all inputs.", "anchors": ["stempy/reader.cpp: StreamReader 55-122, readHeaderVersion1 124-154, readHeaderVersion2 156-178, readHeaderVersion3 188-220, read 222-268"]}
{"id": "C22", "title": "Truncated stream is not mistaken for data", "statement": "Reading a stream whose last file is cut at any byte never returns a block that was not completely present: it returns the complete blocks and then signals an error or the end, never a partially filled block. A file that cannot be opened is signalled as an error after the blocks of the files before it.", "quantifier": "all cut points of all streams", "why_tests_cant": "Every cut point of every stream.", "anchors": ["stempy/reader.cpp: read<T> 106-122, read 222-268"]}
{"id": "C23", "title": "Rewinding the stream reader", "statement": "After any number of reads, rewinding the stream reader makes it return the same sequence of blocks from the beginning.", "quantifier": "all read/reset histories", "why_tests_cant": "All histories of operations.", "anchors": ["stempy/reader.cpp: reset 270-276, openNextFile 69-92"]}
{"id": "C24", "title": "Sector frames are assembled completely and once", "statement": "Reading the four sector streams of a detector yields, for every scan position that has four sector records, exactly one complete frame, and after the streams are exhausted one partial frame for each position with 1-3 records, in increasing position order, and then the end; each of the records is used exactly once.", "quantifier": "all distributions of records over streams", "why_tests_cant": "All arrival orders.", "anchors": ["stempy/reader.cpp: SectorStreamReader::read 418-489"]}
{"id": "C25", "title": "Sector placement is a bijection", "statement": "The four sectors of a frame tile the detector: every detector pixel is written by exactly one pixel of exactly one sector, for both sector layouts (vertical strips for version 4, horizontal strips for version 5); sector pixel order is preserved inside the strip.", "quantifier": "all pixels of the frame, all sector contents", "why_tests_cant": "Index arithmetic must hold for all 331776 pixels and all contents.", "anchors": ["stempy/reader.cpp: readSectorDataVersion4 509-518, readSectorDataVersion5 520-529"]}
{"id": "C26", "title": "Rewinding the sector reader", "statement": "After any number of reads, rewinding the sector reader makes it deliver the same frames as a fresh reader.", "quantifier": "all read/reset histories", "why_tests_cant": "All histories of operations; only a rewind between the sectors of one frame exposes stale state.", "anchors": ["stempy/reader.cpp: SectorStreamReader::reset 557-567, read 418-489"]}
{"id": "C27", "title": "Single-pass threaded reader delivers each frame exactly once", "statement": "The threaded sector reader hands every frame that has all four sector records to the user function exactly once, with all four sectors in place, whatever the number of threads and the schedule; no frame is delivered with fewer sectors.", "quantifier": "all numbers of threads, all streams with at most four records per frame number, all schedules", "why_tests_cant": "Thread interleavings.", "anchors": ["stempy/reader.h: SectorStreamThreadedReader::readAll 379-481", "stempy/reader.cpp: nextStream 798-831"]}
{"id": "C28", "title": "Multi-pass reader: scan map is complete and schedule independent", "statement": "After the header pass, the index of the multi-pass reader holds for every scan position, frame number and sector exactly the location of the record with that header, independently of the number of threads and the schedule, provided no two records carry the same triple.", "quantifier": "all record sets with positions inside of the scan and sector numbers 0 to 3, all schedules", "why_tests_cant": "Thread interleavings and record sets.", "anchors": ["stempy/reader.cpp: readHeaders 855-894"]}
{"id": "C29", "title": "Multi-pass reader: each frame processed once, complete flag truthful", "statement": "In the processing pass each indexed frame is passed to the user function exactly once, its pixels are those of the recorded sectors with missing sectors zero, and the frame is flagged complete exactly when four sectors were found.", "quantifier": "all indexes, thread counts and schedules", "why_tests_cant": "Thread interleavings.", "anchors": ["stempy/reader.h: processFrame 606-649, processFrames 653-682"]}
{"id": "C30", "title": "Random access to frames", "statement": "Reading selected frames by image number and frame index returns exactly those frames in the requested order, and fails with an error, reading nothing outside the index, exactly when an image number is outside the scan or a frame index is not smaller than the number of frames at this position.", "quantifier": "all request lists", "why_tests_cant": "All request lists and indexes.", "anchors": ["stempy/reader.h: readFrames 758-799"]}
{"id": "C31", "title": "Multi-pass reader can be used again", "statement": "Calling the full read of the multi-pass reader a second time processes all frames again.", "quantifier": "all histories of calls", "why_tests_cant": "Histories of calls.", "anchors": ["stempy/reader.h: readAll 814-834"]}
{"id": "C32", "title": "Data-captured statistics", "statement": "The reported number of captured sector records equals the number of complete records in the files and the expected number equals four times the scan size, so that a full scan reports equality.", "quantifier": "all files", "why_tests_cant": "All file contents.", "anchors": ["stempy/reader.cpp: dataCaptured 612-632"]}
{"id": "C33", "title": "HDF5 data cube placement", "statement": "Writing a sector stream to the HDF5 data cube stores each frame at column imageNumber mod width (first axis) and row floor(imageNumber/width) (second axis); distinct scan positions get distinct cells, every image number below width*height is in range. Writing it as a list of frames stores each frame at its image number, from consecutive parts of the block.", "quantifier": "all scan sizes and image numbers; for the cube, blocks of one image, which is what the sector reader returns", "why_tests_cant": "All sizes.", "anchors": ["stempy/reader.cpp: toHdf5FrameFormat 635-688, toHdf5DataCubeFormat 690-733"]}
{"id": "C34", "title": "MPI partitions cover the work exactly", "statement": "Splitting streams, scan positions, and sample blocks over ranks assigns every item to exactly one rank, for every number of ranks, when the index is built for the first time.", "quantifier": "all item counts and rank counts", "why_tests_cant": "All combinations.", "anchors": ["stempy/reader_mpi.cpp: initMPI 94-115, partitionScanMap 130-142", "stempy/electron_mpi.cpp: getSampleBlocksPerRank 200-211"]}
{"id": "C35", "title": "MPI gathering loses nothing", "statement": "After gathering, the root's event data at each position is the concatenation, in rank order, of the frames every rank stored there, and the merged index of sector locations contains the union of the ranks' indexes.", "quantifier": "all distributions over ranks", "why_tests_cant": "All distributions.", "anchors": ["stempy/electron_mpi.cpp: receivePartialMap 39-71, sendPartialMap 73-98, gatherEvents 100-120", "stempy/reader_mpi.cpp: gatherScanMap 144-214"]}
{"id": "C36", "title": "Block serialization round trip", "statement": "Sending a block of fewer than 2^32 pixels to another process and receiving it reproduces the header fields used by counting (dimensions, number of images, frame number, image numbers) and all pixels; a message that was cut is rejected.", "quantifier": "all blocks", "why_tests_cant": "Round trip over all blocks.", "anchors": ["stempy/reader_mpi.cpp: Header::serialize 62-67, Block save/load 69-86"]}
{"id": "C37", "title": "Python array reader covers the data once", "statement": "The reader over an in-memory/HDF5 array delivers every frame exactly once, in order, in blocks of at most the block size, each with the image number given for it (its index if none are given), then reports the end; rewinding restarts it.", "quantifier": "all data sets and block sizes b > 0 with as many image numbers as frames and at most 2^32 - b frames", "why_tests_cant": "All sizes.", "anchors": ["python/pyreader.cpp: read 22-59, reset 72"]}
{"id": "C38", "title": "Python view of a block shows the right pixels", "statement": "Viewing a raw block as an array from Python gives element [i,y,x] = pixel x + y*width of frame i, inside of the block's memory, for every frame shape.", "quantifier": "all frame shapes", "why_tests_cant": "Existing detectors are square, which hides wrong strides.", "anchors": ["python/io.cpp: Block buffer 24-43, PyBlock 45-64", "python/image.cpp: buffers 243-299"]}
{"id": "C39", "title": "Old file formats convert without losing events", "statement": "Converting version 1 or 2 electron files to the current in-memory format keeps for each scan position the multiset of events: frames of the position are stored in the order of the file and missing frames are empty. In version 1, frame i is the frame of scan position i and may hold an event several times; it becomes several frames without repeated events.", "quantifier": "all data sets with at least one frame, any number of frames per position, any order of the positions in version 2", "why_tests_cant": "All data.", "anchors": ["python/stempy/io/compatibility.py: convert_data_format 4-24, 27-63, 66-69, 72-94"]}
{"id": "C40", "title": "Sparse sum equals dense sum", "statement": "Summing a sparse array over the scan axes or the frame axes gives the same result as expanding it to a dense array and summing.", "quantifier": "all sparse arrays whose frames hold every pixel at most once (each entry of a frame represents a 1 at that index)", "why_tests_cant": "All data, any number of frames per position; a sum over repeated events inside of one frame would differ.", "anchors": ["python/stempy/io/sparse_array.py: sum 479-517, to_dense 284-305, _expand 992-1032"]}
{"id": "C41", "title": "Sparse max, min and mean equal the dense ones", "statement": "max, min and mean of a sparse array over the scan axes or the frame axes equal those of the dense expansion.", "quantifier": "all sparse arrays", "why_tests_cant": "All data, including empty positions and frames.", "anchors": ["python/stempy/io/sparse_array.py: max 385-425, min 428-476, mean 520-558"]}
{"id": "C42", "title": "Binning scan positions conserves events", "statement": "Binning the scan by a factor that divides both scan dimensions yields positions whose event multiset is the union of those of the binned positions; the total number of events is unchanged.", "quantifier": "all sparse arrays and factors", "why_tests_cant": "All shapes and factors.", "anchors": ["python/stempy/io/sparse_array.py: bin_scans 560-609"]}
{"id": "C43", "title": "Binning detector pixels conserves events", "statement": "Binning detector pixels by a factor that divides both frame dimensions moves every event to the pixel (row/b, column/b); the dense view of the result is the block sum of the dense view and the total number of events is unchanged.", "quantifier": "all sparse arrays, frame shapes and factors", "why_tests_cant": "Non-square frames are not tested.", "anchors": ["python/stempy/io/sparse_array.py: bin_frames 611-706"]}
{"id": "C44", "title": "Slicing commutes with densification", "statement": "Slicing a sparse array (in any combination of scan and frame slices), staying sparse, and then densifying equals densifying and then slicing.", "quantifier": "all sparse arrays and index expressions", "why_tests_cant": "Index expressions and data are unbounded.", "anchors": ["python/stempy/io/sparse_array.py: __getitem__ 708-714, _split_slices 781-883, _slice_sparse 931-990, _slice_dense 901-929"]}
{"id": "C45", "title": "Slice bounds follow Python semantics", "statement": "Every start/stop/step slice selects only indexes inside the axis, without repetition, the number of selected indexes is the length of the result axis, and integer indexes outside of the axis are rejected.", "quantifier": "all slices and axis lengths", "why_tests_cant": "All triples.", "anchors": ["python/stempy/io/sparse_array.py: _split_slices 781-883"]}
{"id": "C46", "title": "Reshape and ravel keep the data", "statement": "Flattening and reshaping the scan shape never changes the event lists or their order and flattening after any reshape restores the flat array; a reshape to a shape of a different size is rejected.", "quantifier": "all sparse arrays and shapes", "why_tests_cant": "All shapes.", "anchors": ["python/stempy/io/sparse_array.py: reshape 339-370, ravel_scans 372-382"]}
{"id": "C47", "title": "HDF5 round trip of sparse arrays", "statement": "Saving a sparse array and loading it back gives the same event lists, scan shape and frame shape (with flyback kept).", "quantifier": "all sparse arrays", "why_tests_cant": "Round trip over all arrays, square or not.", "anchors": ["python/stempy/io/sparse_array.py: from_hdf5 174-249, write_to_hdf5 251-282"]}
{"id": "C48", "title": "Flyback cropping removes exactly the last column", "statement": "Loading with flyback removed keeps the data of all scan columns but the last, at the same row and column, and the scan shape has one column less.", "quantifier": "all scan shapes", "why_tests_cant": "All shapes.", "anchors": ["python/stempy/io/sparse_array.py: from_hdf5 201-213"]}
{"id": "C49", "title": "Accidental full expansion is denied", "statement": "Without explicit permission, an operation which would create the full dense array is refused with an error; with permission the result equals the dense array.", "quantifier": "all slices and operations", "why_tests_cant": "All index expressions.", "anchors": ["python/stempy/io/sparse_array.py: _default_full_expansion 29-46, to_dense 284-305, _slice_dense 901-929"]}
{"id": "C50", "title": "Center of mass implementations agree", "statement": "Both sparse center-of-mass implementations return, for every scan position with events (inside the crop if one is given), the mean of the event coordinates, and the dense implementation returns the same for the densified data; the power-of-two shortcut agrees with division.", "quantifier": "all data and frame shapes", "why_tests_cant": "All data, non-square and power of two shapes.", "anchors": ["python/stempy/image/__init__.py: com_v1_kernel 402-477, _com_sparse_v1 480-521, _com_sparse_v0 524-576, com_dense 644-665"]}
{"id": "C51", "title": "Virtual dark field and real-space mask", "statement": "The virtual dark-field image counts, for each scan position, the events within the given circles, and masking in real space gives the diffraction pattern summed over the selected positions.", "quantifier": "all data, circles and masks", "why_tests_cant": "All data, including repeated events.", "anchors": ["python/stempy/image/__init__.py: virtual_darkfield 806-849, mask_real_space 900-918, calculate_sum_sparse 668-686"]}
{"id": "C52", "title": "Sparse radial sum", "statement": "The sparse radial sum counts every event whose distance to the center lies in the covered range in exactly one radial bin; events outside are dropped, so the total never exceeds the number of events.", "quantifier": "all data and centers", "why_tests_cant": "All data.", "anchors": ["python/stempy/image/__init__.py: radial_sum_sparse 689-715"]}
{"id": "C53", "title": "Bad-sector filter replaces outliers by neighbours", "statement": "The center-of-mass filter replaces each position outside of the cut-off by the median of the valid values of its in-bounds 3x3 neighbourhood (in scan order, so that positions repaired before count with their new value) and leaves all other positions unchanged, also at the borders.", "quantifier": "all images and cut-offs", "why_tests_cant": "Border behaviour for all shapes.", "anchors": ["python/stempy/image/__init__.py: filter_bad_sectors 619-642"]}
{"id": "C54", "title": "Metadata round trip", "statement": "Saving a nested dictionary of metadata into an HDF5 group and loading it gives back the same nested dictionary.", "quantifier": "all nested dictionaries with unique keys, where the names of nested dictionaries are names of HDF5 groups (not empty, not a dot, no slash)", "why_tests_cant": "Recursive structure of any depth.", "anchors": ["python/stempy/io/sparse_array.py: save_dict_to_h5 1079-1085, load_h5_to_dict 1088-1097"]}
{"id": "C55", "title": "Scan path resolution", "statement": "Resolving the path of an electron-count file returns a path that exists and matches the requested scan number / scan id / distiller id under the newest naming version that has a match, and fails when there is none or more than one match.", "quantifier": "all directory listings and argument combinations", "why_tests_cant": "All directory contents.", "anchors": ["python/stempy/contrib/__init__.py: check_only_one_filepath 19-25, get_scan_path_version_0 28-86, get_scan_path_version_1 89-143, get_scan_path 146-207"]}
{"id": "C56", "title": "Safe cast preserves values", "statement": "Casting a dark or gain reference to another type either gives an array with equal values or raises ValueError.", "quantifier": "all arrays", "why_tests_cant": "All arrays.", "anchors": ["python/stempy/image/__init__.py: _safe_cast 718-728"]}
{"id": "C57", "title": "Threshold histogram stays in bounds", "statement": "Building the sample histogram for the counting thresholds never writes outside the histogram, and the x-ray and background thresholds are mean + n*sigma of the sample resp. optimized mean + |optimized sigma|*n.", "quantifier": "all samples and sigma factors", "why_tests_cant": "Out-of-bounds writes depend on the spread of the sample.", "anchors": ["stempy/electronthresholds.cpp: calculateMean 13-17, calculateVariance 19-31, calculateThresholds 74-193"]}
{"id": "C58", "title": "A read error during a radial sum is reported cleanly", "statement": "When reading a block fails with an error in the middle of a radial sum or a dense STEM image computation, the call reports that error, and no worker task touches the result memory after it was released.", "quantifier": "all points of failure, all numbers of queued tasks, all schedules of the workers", "why_tests_cant": "The failure needs a read error at the moment tasks are still queued, and the effect is memory corruption that need not crash.", "anchors": ["stempy/image.cpp: radialSum 477-581 (pool 531 declared before result 532), createSTEMImages 162-277", "thirdparty/ThreadPool/ThreadPool.h: ~ThreadPool 87-96"]}
{"id": "C59", "title": "Counted frames keep their pixel positions in Python", "statement": "In the sparse array returned to Python by electron counting, the dense view of a frame has a 1 at row y, column x exactly when the detector reported an event at pixel (x, y), for every frame shape; and STEM images computed from that sparse array equal those computed from the counting result itself.", "quantifier": "all frame shapes and event lists", "why_tests_cant": "Detectors used in tests are square, where swapping the two dimensions is invisible.", "anchors": ["python/stempy/image/__init__.py: electron_count 330-352, create_stem_images 76-92", "python/stempy/io/sparse_array.py: _expand 992-1032"]}
{"id": "C60", "title": "Sector files round trip at byte level", "statement": "Parsing the bytes of any list of encoded sector records gives exactly those records; parsing a file cut at any byte gives exactly the records before the cut followed by at most one further record that has an incomplete header or fewer pixels.", "quantifier": "all lists of records, all cut positions", "why_tests_cant": "Files cut at every byte cannot be enumerated in tests.", "anchors": ["stempy/reader.cpp: readHeader 331-368, readSectorData 491-529"]}
{"id": "C61", "title": "Array arguments are used by value whatever their memory layout", "statement": "NumPy arrays given as frames, as dark reference, as gain or as sparse events are used with their values as seen from Python, whatever their memory layout (C order, Fortran order, cropped, sliced with a step).", "quantifier": "all arrays and all strides", "why_tests_cant": "Tests use freshly created arrays, which are contiguous.", "anchors": ["python/image.cpp: toCpp 57-134", "python/pyreader.cpp: 38-45", "stempy/image.h: 65-68", "python/stempy/image/__init__.py: 238, _safe_cast 718-729"]}
{"id": "C62", "title": "The sector of a file is the number after the last module of its name", "statement": "The sector taken from the path of a file is the decimal number that follows the last text module<digits>.data of the path, and -1 exactly if there is no such text.", "quantifier": "all paths", "why_tests_cant": "All strings.", "anchors": ["stempy/reader.cpp: extractSector 280-289"]}
{"id": "C63", "title": "Random access to frames from Python", "statement": "Reading the frames of a scan position from Python, the position being a (row, column) pair or a flat index, returns the blocks of the requested frames of this position in the requested order: all of them for None, one block for an integer, and those NumPy would select for a slice or a list; positions and frames that do not exist raise an exception.", "quantifier": "all files, scan shapes, positions and requests", "why_tests_cant": "Files of tests have the same number of frames at every position.", "anchors": ["python/stempy/io/__init__.py: read_frames 89-149, scan_shape 78-87", "stempy/reader.h: loadFrames 801-812, readFrames 758-799"]}
{"id": "C64", "title": "Reading and writing parts of HDF5 data sets", "statement": "Reading a hyperslab that is inside of a data set of any number of dimensions gives its elements in row-major order, the element k being the one at start + k * stride; what was written to a hyperslab is read from it again, and the other elements are unchanged; without any selection the whole data set is read; without counts as much as possible is read for the start and the strides; a hyperslab that is not inside of the data set is an error.", "quantifier": "all data sets, numbers of dimensions, starts, strides and counts", "why_tests_cant": "Tests read whole data sets and small slabs with stride 1.", "anchors": ["h5cpp/h5readwrite.cpp: readData 355-430, updateData 235-310", "h5cpp/h5readwrite.h: 170-210"]}
{"id": "C65", "title": "Iteration over the blocks of a stream", "statement": "A loop over the blocks of a stream ends for all files, after at most as many blocks as there are bytes, and the loop in Python sees the same blocks, in the same order and with the same error at the end, as the one in C++.", "quantifier": "all files of the formats 1, 2 and 3, whatever they contain", "why_tests_cant": "The content of files is arbitrary; the end is found in a different way in the two languages.", "anchors": ["stempy/reader.h: BlockIterator 90-140", "python/stempy/io/__init__.py: ReaderMixin 24-52"]}
{"id": "C66", "title": "Raw data files", "statement": "Raw frames saved to an HDF5 file, with one scan position for every frame or without positions, are read back from it completely, in their order and with their positions, and with the scan dimensions given when saving, or else those of the STEM images in the file; saving never changes data which the file has already, but raises an exception, as does reading a file without frames or without scan dimensions.", "quantifier": "all frames, positions, scan dimensions and contents of the file", "why_tests_cant": "All states of a file and all sizes; tests save to new files only.", "anchors": ["python/stempy/io/__init__.py: get_hdf5_reader 152-174, save_raw_data 212-251, save_stem_images 275-292"]}
{"id": "C67", "title": "STEM images do not depend on how the data is given", "statement": "create_stem_images in Python gives the same images for the same data given as a reader (whatever the blocks), as an array, or as a file with or without positions, and for the same events given as a result of counting, as a sparse array, as an object with its attributes or as arrays of one or two dimensions; radii are numbers or lists; if the scan dimensions are neither given nor part of the data, an exception is raised.", "quantifier": "all data, shapes, radii, groupings in blocks, orders of frames and schedules of the threads", "why_tests_cant": "The combinations of representations and sizes are infinite; the runs depend on thread timing.", "anchors": ["python/stempy/image/__init__.py: create_stem_images 15-124", "python/pyreader.cpp: 13-75"]}
{"id": "C68", "title": "Parameters of pipelines", "statement": "A function with pipeline and parameter decorators lists in PARAMETERS exactly the declared parameters, in the order of declaration, and gets for every parameter the value given in the call, by position or by keyword, or else the default that is listed for it; this holds for every function whatever other functions are defined.", "quantifier": "all functions, numbers and orders of decorators, names (also repeated ones), values and modules", "why_tests_cant": "All stacks of decorators and all calls; tests decorate one function.", "anchors": ["python/stempy/pipeline/__init__.py: 24-60"]}
{"id": "C69", "title": "phase_from_com inverts the gradient of a band limited phase", "statement": "phase_from_com, with its arrays in the order (y, x): if the center of mass is, up to a constant offset, the gradient of a phase that is a finite sum of waves with less than half a period per pixel along each axis, rotated by theta and mirrored if flip is set, then the result at every pixel is that phase without its constant, each wave scaled by the factor (2 pi k^2)^2 / ((2 pi k^2)^2 + reg^2), which is 1 for reg = 0. The mean of the result is 0 and constant offsets of the center of mass do not matter, for every input. With the arrays in the order (x, y) that com_sparse gives, the default arguments lose a phase which changes along x only, and flip with a quarter turn gives the right phase.", "quantifier": "every image size, every list of waves, every rotation, mirroring, offset and regularization (exact arithmetic)", "why_tests_cant": "a test compares the picture for one data set; a swapped axis, a wrong frequency sign or a wrong rotation gives a similar looking picture for symmetric objects", "anchors": ["python/stempy/image/__init__.py:731-778"]}
{"id": "C70", "title": "electron_count subtracts the dark reference it is given", "statement": "electron_count in Python: the values of the array given as dark reference, if they are numbers of type float, are the ones that are subtracted, both for finding the thresholds and for counting, and the inverses of the given gain are multiplied with; other values are refused. The thresholds are found from the next blocks of the reader, all blocks of the reader are counted, and the call can be repeated.", "quantifier": "every dark reference (array, average image, derived array, image), gain, reader and set of arguments, and every way to find the thresholds", "why_tests_cant": "tests pass the average image itself and call the function once; arrays computed from the average image take another path", "anchors": ["python/stempy/image/__init__.py: ImageArray 170-178, electron_count 197-328", "python/image.cpp: 57-134"]}
{"id": "C71", "title": "Arguments reach the parameters of C++ they are meant for", "statement": "calculate_thresholds, called by electron_count with positional arguments some of which are left out, selects the overload whose parameters are the blocks, the dark reference, the number of samples, the factors and the gain as given; maximum_diffraction_pattern accepts the dark references made by calculate_average.", "quantifier": "every combination of given and missing arguments, integer or floating point factors, array or image as dark reference, both kinds of blocks", "why_tests_cant": "overload resolution depends on the types of all arguments; the tests use one combination each", "anchors": ["python/image.cpp: 493-613", "python/stempy/image/__init__.py: 275-291, 378-399"]}
{"id": "C72", "title": "VTK-m build counts the same electrons as the serial build", "statement": "In a build with VTK-m, maximalPointsParallel (preprocessing worklets followed by the neighbourhood search) returns for every frame the events the serial code returns for the same options.", "quantifier": "for all frames, frame dimensions, thresholds, dark references, gains and pixel types", "why_tests_cant": "The tests are built without VTK-m, and use square frames with events away from the border.", "anchors": ["stempy/electron.cpp:25-236", "stempy/electron.cpp:462-496"]}
{"id": "C73", "title": "VTK-m build computes the same STEM values and radial sums as the serial build", "statement": "Whatever the order and bracketing in which VTK-m reduces a frame with MaskAndAdd, the STEM value equals the serial sum of value & mask; whatever the order of the RadialSumWorklet additions, the accumulated radial sums equal the serial ones.", "quantifier": "for all frames, masks, offsets, centers, scan sizes, reduction trees and orders of atomic additions (radial sums with fewer than 2^32 accumulators)", "why_tests_cant": "The order used by a parallel reduction cannot be enumerated by tests, and the tests are built without VTK-m.", "anchors": ["stempy/image.cpp:64-122", "stempy/image.cpp:399-459"]}
{"id": "C74", "title": "Gaussian fit uses the exact derivatives, and an exact Gaussian background determines the threshold", "statement": "The Jacobian given to the Levenberg-Marquardt solver is the derivative of the residuals for every state with a nonzero deviation; the residuals do not depend on the sign of the deviation; and if the histogram is exactly a Gaussian over at least three distinct bins, every state with zero residuals yields its height, mean, deviation and background threshold.", "quantifier": "for all bins, histograms, states and parameters (exact real arithmetic)", "why_tests_cant": "A wrong derivative only slows or biases convergence, which tests with tolerances do not notice; uniqueness is a statement about all states.", "anchors": ["stempy/electronthresholds.cpp:33-73", "stempy/electronthresholds.cpp:154-175"]}
{"id": "C75", "title": "The example counting script never overwrites a result", "statement": "The name chosen for the output file is not in the output directory; it is the plain name if free and otherwise the one with the smallest free number; the search ends for every directory. After any number of runs for a scan the files are the plain name and the numbers 1, 2, ... in order, and get_scan_path by scan number returns the file of the first run.", "quantifier": "for all directories, scan numbers and numbers of runs", "why_tests_cant": "Needs arbitrary directory contents, including more than 999 results.", "anchors": ["examples/electron_count.py:102-118", "python/stempy/contrib/__init__.py:28-86"]}
{"id": "C76", "title": "Python references held by C++ are counted correctly in every schedule", "statement": "Reference counts of Python arrays are read and changed only by the thread which holds the interpreter lock; an array stays alive while a block refers to it, and the reference of C++ is dropped exactly once, after the last block; no deadlock occurs, and every call ends.", "quantifier": "any number of threads, any sequence of copies, moves, assignments and destructions of blocks, reads and Python code, every schedule, and array arguments of bound functions", "why_tests_cant": "A count changed without the lock is lost only in rare interleavings, and the damage shows later and elsewhere.", "anchors": ["python/pyreader.h:15-72", "python/pyreader.cpp:6-59", "python/image.cpp:137-180", "python/image.cpp:488-571"]}
{"id": "C77", "title": "Reductions of a sparse array in an element type agree with the dense ones", "statement": "The sum of a sparse array over the scan or frame axes, computed in its element type, is the sum of the dense array if that fits the type, for unsigned types of any width and for the float32 which mean uses; the maximum and minimum are those of the dense array if its values fit.", "quantifier": "for all sparse arrays, all unsigned types and all floating point precisions", "why_tests_cant": "Overflow and saturation need more than 2^24 (float32) or 2^32 (uint32) events in one pixel.", "anchors": ["python/stempy/io/sparse_array.py:385-558", "python/stempy/io/sparse_array.py:901-929", "python/stempy/io/sparse_array.py:992-1011"]}
{"id": "C78", "title": "HDF5 identifiers are closed exactly once", "statement": "Whatever the HDF5 library answers to any of its calls, every identifier made by the reader and writer class is closed once, by the function for its kind, before the call returns, and that of the file by close or the destructor; identifiers of others are not closed; the error handler is restored. A HIDCloser closes the identifier it has when it is reset or destroyed, and a moved one is closed by the new owner.", "quantifier": "for all sequences of calls and all results of the library, in particular a failure at any place", "why_tests_cant": "Leaks on error paths need a failing library call at each place.", "anchors": ["h5cpp/hidcloser.h:12-58", "h5cpp/h5readwrite.cpp:56-430", "h5cpp/h5readwrite.cpp:431-743", "h5cpp/h5readwrite.cpp:880-1010"]}
{"id": "C79", "title": "Derived sparse arrays do not share storage", "statement": "A slice of a sparse array and the result of bin_scans or bin_frames (without in_place) leave the array unchanged and share no storage with it: whatever is written into the events, frames or metadata of one is never seen in the other, and writing the events of one frame of a slice changes no other frame. With in_place, the array becomes what would otherwise have been returned, including the metadata.", "quantifier": "all sparse arrays, index expressions and factors; all sequences of writes", "why_tests_cant": "Sharing shows only when something is written later; tests compare values.", "anchors": ["python/stempy/io/sparse_array.py: bin_scans 560-609, bin_frames 611-706, _slice_sparse 931-990, __init__ 126-144"]}
{"id": "C80", "title": "The metadata of counted data reproduce the counting", "statement": "The metadata of the array made by electron_count, under their names and also after the array was written to a file and read, give the thresholds and the optimized mean: counting any frame with these gives its events in the array. They say whether thresholds were calculated, with which numbers of standard deviations, and the statistics of the samples from which the thresholds follow.", "quantifier": "for all samples, thresholds, options and frames, all readers, and all ranks with MPI", "why_tests_cant": "A wrong number in the metadata changes no image; it shows when somebody repeats the counting.", "anchors": ["stempy/electron.cpp:685-835", "stempy/electron.cpp:408-506", "stempy/electronthresholds.cpp:121-192", "stempy/electron_mpi.cpp:186-198", "python/image.cpp:37-49", "python/image.cpp:369-390", "python/stempy/image/__init__.py:334-347", "python/stempy/image/__init__.py:780-805"]}
{"id": "C81", "title": "Values written to an HDF5 file as a C++ type come back unchanged", "statement": "For every sequence of calls of H5ReadWrite on a new file: the file stays a tree in which every object is in a group and a path means one object; a call which fails leaves the file as it was; data sets, numbers and strings which have been written are never changed by later calls, and reading them with the same element type, also after opening the file again, gives the numbers, the dimensions and the type written, while reading them as any other type is refused without a value; children and allDataSets give each name once and in order; the three type maps agree with each other.", "quantifier": "all platforms (signed or unsigned char), sequences of calls, paths, names, element types, dimensions and numbers", "why_tests_cant": "Tests write one or two arrays of one type on x86. Vector attributes, empty vectors, products of dimensions beyond 2^31, unsigned char platforms, names of 2048 characters, other spellings of the same path and the order of later calls are not tried, and an overflow of the variable for an attribute need not be visible.", "anchors": ["h5cpp/h5typemaps.h:14-127", "h5cpp/h5readwrite.cpp:75-233", "h5cpp/h5readwrite.cpp:302-507", "h5cpp/h5readwrite.cpp:566-895", "h5cpp/h5readwrite.cpp:912-1011"]}
{"id": "C82", "title": "Counting electrons with the threaded multi-pass reader counts every frame of the sector files once", "statement": "The threads of SectorStreamMultiPassThreadedReader run as one machine with electronCount: reading sectors, sampling, the wait for samples, the thresholds, the backlog and the join. In every execution which ends, each frame with a record in the files, complete or not, has been counted exactly once with the thresholds computed from exactly the required number of complete frames, in the list of its scan position; while not done a step is possible; the number of steps is bounded; with too few complete frames the caller waits for ever; no two threads write to one list.", "quantifier": "all file contents, indices, thread counts, scan sizes, sample counts, thresholds and counting functions, all interleavings, spurious wakeups and ways for a reader worker to exit before the others", "why_tests_cant": "A test sees one schedule of one data set. Workers which exit while others still deliver, notifications without a waiting worker and two frames of one position on two threads are rare and cannot be forced.", "anchors": ["stempy/reader.h:606-689", "stempy/reader.h:709-757", "stempy/reader.h:814-834", "stempy/electron.cpp:563-836"]}
{"id": "C83", "title": "The multi-pass reader delivers the pixels of cut sector files, and marks a frame complete only if all of them were read", "statement": "The sector files are bytes and may end anywhere; the streams have a position, an eof bit and a fail bit. The header pass finds the records which are in the file. Every block a thread of readAll delivers, and every frame of loadFrames, has the pixels stored in its records, whatever was read before, and is complete only if the four sectors were read in full. Every execution ends, with each frame delivered once. The dimensions of the scan are read from the first header.", "quantifier": "all bytes of all files, all cuts, indices, thread counts and position ranges, all interleavings; all sequences of frames read by random access", "why_tests_cant": "Cut files come from full disks and interrupted transfers. A stream keeps its fail bit, so the loss appears in other frames than the cut one, which ones depends on the schedule, and nothing is reported.", "anchors": ["stempy/reader.h:606-757", "stempy/reader.h:758-812", "stempy/reader.cpp:331-368", "stempy/reader.cpp:520-529", "stempy/reader.cpp:854-894"]}
{"id": "C84", "title": "If the thresholds cannot be computed the exception leaves electronCount with all threads stopped", "statement": "calculateThresholds throws when the fit does not converge. The exception leaves the streaming electronCount while the workers of the reader run. After that no worker uses variables of the call (lambdas, samples, condition variable, mutex, events), no condition variable is destroyed while a thread waits on it, and every execution ends. If the thresholds can be computed nothing is different.", "quantifier": "all numbers of threads and samples, all streams of blocks, all sets of samples for which the computation fails, all interleavings and spurious wakeups", "why_tests_cant": "A test would need data for which the fit fails, and undefined behaviour in other threads after the exception may not be visible.", "anchors": ["stempy/electron.cpp:684-711", "stempy/electron.cpp:644-682", "stempy/electronthresholds.cpp:163-169", "stempy/reader.h:473-481", "stempy/reader.h:826-833"]}
{"id": "C85", "title": "STEM images of counted data are those of the frames in the sector files", "statement": "A scan of whole sector files is counted with the multi-pass reader, the result is saved, loaded, and STEM images are computed. When this is done, every frame of which the files have a record, with the pixels of its records in the strips of the sectors and zeros in strips that are missing, was counted exactly once at its position with thresholds computed from numBlocks complete frames; the frame of a position in the loaded array has the events of its frames, and pixel (X, Y) of an image is 65535 times the number of events in the annulus of all frames at (X, Y). The images do not depend on the schedule, numbers of threads or the order of files, as long as the thresholds are the same.", "quantifier": "all sector files without two records of the same position, frame and sector, all scan shapes, numbers of threads, schedules of header pass and counting, functions computing the thresholds, dark references and gains, radii and centers in range; executions without data races (C82)", "why_tests_cant": "The property is about the composition of five components, each with its own convention for positions, strips, flat indices and (width, height) order, in all schedules; tests compare single data sets.", "anchors": ["stempy/reader.cpp:833-894", "stempy/reader.h:607-690", "stempy/electron.cpp:527-561", "stempy/electron.cpp:565-836", "stempy/image.h:76-110", "python/stempy/image/__init__.py:330-352", "python/stempy/image/__init__.py:75-83", "python/stempy/io/sparse_array.py:174-282"]}
{"id": "C86", "title": "Pixels without a value do not change which other pixels are events", "statement": "If the corrected value of a pixel is not a number (a half row whose mean or median is zero under row dark correction, as in a frame with a missing sector; a gain that is NaN, or infinite at a dark pixel), the counting of the frame is defined, the pixel is no event, and any other pixel is an event iff its value is between the thresholds and greater than the values of those neighbours that are between the thresholds.", "quantifier": "all frames (square ones for row dark correction), dark references, gains, thresholds and optimized means, with and without row dark correction, mean or median, with and without gain; all frames which the multi-pass reader makes of records with missing sectors", "why_tests_cant": "NaN compares false with everything, so the effect is an electron missing at the border of a missing strip, and only for row dark correction with a gain and without a dark reference; test data have complete frames and positive values.", "anchors": ["stempy/electron.cpp:239-312", "stempy/electron.cpp:339-406", "stempy/electron.cpp:527-561", "stempy/reader.h:621-642"]}
{"id": "C87", "title": "Block-wise counting of sector files counts the frames of the files, whatever was read for the thresholds", "statement": "electron_count with a reader of sector files reads blocks for the thresholds, rewinds the reader and counts all blocks. For every position of which there is a record, the stored events are exactly those of the frame with the pixels of all records of the position; they depend on the blocks for the thresholds, and on blocks read before, only through the thresholds.", "quantifier": "all whole sector files of versions 4 and 5 with at most one record of each position in each sector, in any order and with any sectors missing; all numbers of blocks read before the call and for the thresholds; all thresholds, dark references and gains", "why_tests_cant": "The rewind keeps the incomplete frames in the cache of the reader; the effect depends on the order in which the records of the four files meet, and the test has files whose records are in step.", "anchors": ["python/stempy/image/__init__.py:267-328", "stempy/reader.cpp:418-489", "stempy/reader.cpp:557-567", "stempy/electron.cpp:408-525"]}
{"id": "C88", "title": "Block-wise counting of stream and HDF5 files counts all frames of the files, whatever was read before and for the thresholds", "statement": "electron_count with a reader of stream files (formats 1 to 3) or of an HDF5 file reads blocks for the thresholds, rewinds the reader and counts all blocks. Its only result has at each scan position exactly the events of the last frame of that position in the files, and no events at positions without a frame; if no position has two frames, the sparse array, the saved file and the images made from them are those of the frames. Blocks read before the call and for the thresholds change nothing but the thresholds. The call ends with StopIteration exactly if there are too few blocks for the thresholds (for format 1: before a block with version 0).", "quantifier": "all files of whole records of square frames (non-square frames: see the property on them), all block sizes, positions and empty files, all numbers of blocks for the thresholds, all uses of the reader before, all thresholds, references and gains", "why_tests_cant": "The composition of parsing, rewinding, sampling and counting over several files cannot be enumerated; the tests have one small data set.", "anchors": ["python/stempy/image/__init__.py:267-328", "python/stempy/io/__init__.py:24-62", "stempy/reader.cpp:49-276", "python/pyreader.cpp:22-76", "stempy/electron.cpp:408-525"]}
{"id": "C89", "title": "The default reader and the multi-pass reader count the same sector files with the same result", "statement": "For sector files of version 5 with at most one frame per scan position, electron_count with the default (block-wise) reader and electron_count with the multi-pass reader give the same frames, also after saving and loading, and the same STEM images whenever the thresholds are the same.", "quantifier": "all whole sector files with any order of the records and missing sectors, all numbers of blocks for the thresholds, all uses of the block-wise reader before, all dark references and gains, all numbers of threads and all schedules of the multi-pass reader", "why_tests_cant": "The two backends read the files in different orders and with different threads; a test compares them on one small data set in which all sectors arrive in step.", "anchors": ["python/stempy/image/__init__.py:249-328", "stempy/reader.cpp:405-530", "stempy/reader.h:430-660", "stempy/electron.cpp:408-525", "stempy/electron.cpp:700-880"]}
{"id": "C90", "title": "From the bytes of the sector files to the STEM images", "statement": "electron_count with the multi-pass reader, started on the bytes of sector files (one open stream per file with position and failure flags, shared by the header pass and by the reading threads), never gets stuck, has no undefined behaviour, terminates, and returns data whose frames and STEM images, also after saving and loading, are those of the frames whose records were written to the files. The scan size is taken from the first header when the user gives none.", "quantifier": "all lists of sector files of complete records with the first file not empty, at most one frame per scan position and at least as many complete frames as are sampled; all values of headers and pixels that fit their fields; all numbers of threads and all schedules; with and without dark reference, gain and row dark correction", "why_tests_cant": "The state of the streams (position, eof and fail bits) is shared over two passes with many threads; a test has one small file set and sees one schedule.", "anchors": ["stempy/reader.cpp:531-555", "stempy/reader.cpp:854-894", "stempy/reader.h:613-619", "stempy/reader.h:683-757", "stempy/reader.h:814-834", "stempy/electron.cpp:563-836"]}
{"id": "C91", "title": "Counting on several MPI ranks", "statement": "electron_count with the multi-pass reader on several MPI ranks (every rank reads its share of the positions with its threads and takes its share of the sample frames; rank 0 gathers the samples, computes and broadcasts the thresholds, and gathers the events) returns on rank 0 whenever the scan has at least thresholdNumberOfBlocks complete frames, without undefined behaviour, and with every frame of the files counted once at its position with thresholds of thresholdNumberOfBlocks complete frames; so images do not depend on the number of ranks.", "quantifier": "all sector files, numbers of ranks, threads and sample blocks, and all schedules of all threads and messages", "why_tests_cant": "The order of the messages and of the threads on several machines cannot be controlled by a test, and the tests of the repository run on one process.", "anchors": ["stempy/electron.cpp:563-836", "stempy/electron_mpi.cpp:39-211", "stempy/reader_mpi.cpp:94-142"]}
{"id": "C92", "title": "Rounding to single precision does not change the counted electrons", "statement": "The pixels which are counted when every float operation of the correction (dark subtraction, mean of the half row, factor, gain) is rounded to single precision are those counted by the same correction in exact arithmetic.", "quantifier": "all frame sizes, frames, float dark and gain references, thresholds, and every rounding mode of IEEE 754", "why_tests_cant": "Which products and sums are rounded over a threshold or to the value of a neighbour depends on the pixel, the references and their neighbours; the tests compare with values computed in the same arithmetic.", "anchors": ["stempy/electron.cpp:239-312", "stempy/electron.cpp:462-495", "stempy/electron.cpp:527-561"]}
{"id": "C93", "title": "The single-pass threaded reader reads its files evenly", "statement": "At any time the numbers of records read from two sector files differ by at most one unless one of the files is at its end, so that the number of partly read frames held in memory is bounded by the number of files; and no stream waits in the queue while others are read again and again.", "quantifier": "all numbers of files, records and threads, all schedules and all orders of entries of equal priority", "why_tests_cant": "Which stream a thread gets depends on the schedule; the tests have one small set of files and do not look at the order or the memory.", "anchors": ["stempy/reader.h:292-325", "stempy/reader.h:379-468", "stempy/reader.cpp:798-831"]}
{"id": "C94", "title": "The histogram of a STEM image counts every pixel in double arithmetic", "statement": "With the bin edges computed by getContainer in IEEE 754 double precision, the frequencies returned by createSTEMHistogram add up to the number of pixels of the image: no pixel is lost and none is counted twice.", "quantifier": "all images of 64 bit pixels, all numbers of bins, all rounding modes", "why_tests_cant": "The last edge is min + numBins * ((max - min) / numBins), which is below max for a few combinations of range and number of bins only (the smallest number of bins is 49 for a range of one).", "anchors": ["stempy/image.cpp:280-302", "stempy/image.cpp:304-333", "stempy/image.h:48"]}
{"id": "C95", "title": "Both versions of com_sparse return the rounded centers of mass in floating point", "statement": "With single precision in version 1 and double precision in version 0, both versions of com_sparse keep exactly the events within the cropping radius and return at every scan position the quotient of the sum of their coordinates and their number, rounded to the type of the result; so the versions agree.", "quantifier": "all counted data sets, all cropping radii and centers, all rounding modes", "why_tests_cant": "The versions differ only for events whose distance from the center is the radius up to rounding; the center of mass of a few events can be such that one of them is at exactly this distance.", "anchors": ["python/stempy/image/__init__.py:402-477", "python/stempy/image/__init__.py:480-521", "python/stempy/image/__init__.py:524-576"]}
{"id": "C96", "title": "Masks, radial sums and averages computed in double precision are those of exact arithmetic", "statement": "In double precision the annular mask is the exact one for all arguments; radial sums put every pixel into its exact radius as long as the corners of the frame are within 2^26 of the center; and every pixel of the average of up to 2^37 frames is the exact mean rounded once, so within 2^-37 of it and within the range of the values.", "quantifier": "all frames, blocks, centers and radii within the stated bounds, all schedules of the pool, all rounding modes", "why_tests_cant": "A wrong radius arises only for distances whose square is one above a square and more than 2^52; a wrong sum only after 2^37 frames; no test has frames of that size or number.", "anchors": ["stempy/mask.cpp:9-34", "stempy/image.cpp:344-372", "stempy/image.cpp:374-395", "stempy/image.cpp:477-581"]}
{"id": "C97", "title": "The histogram of the threshold samples, with limits computed in double precision, is within its bounds", "statement": "In double precision the mean of the samples is the exact mean rounded once, the variance is not negative and zero exactly for equal samples, and the histogram whose limits are computed from them is written within its bounds, bin k counting the samples equal to the smallest sample plus k.", "quantifier": "all lists of two or more 16 bit samples, all factors of sigma, all rounding modes", "why_tests_cant": "The index is negative only if the smallest sample is far from the mean measured in a deviation below one; samples of real detectors have larger deviations.", "anchors": ["stempy/electronthresholds.cpp:13-31", "stempy/electronthresholds.cpp:121-153"]}
{"id": "C98", "title": "create_stem_histogram counts the scan positions by the sums of their frames", "statement": "For every pair of radii create_stem_histogram returns the edges lo + i * (hi - lo) / n, computed in double precision from the least and the largest sum of a frame over the annulus, and for every bin the number of scan positions whose sum lies in it, where positions without a frame count with sum 0; no position is counted twice, and only positions with the largest sum can be missing. The result depends neither on the reader and its blocks nor on the threads, and arguments which are not accepted raise an exception.", "quantifier": "all sets of frames with different positions, all divisions into blocks, all pairs of radii and centers, all numbers of bins from 1 to 2^31 - 2, all schedules of the pool, all rounding modes", "why_tests_cant": "Tests of the histogram use one image made by hand; the threads, positions without frames, the rounded edges and unusual numbers of bins do not occur.", "anchors": ["python/stempy/image/__init__.py:126-168", "stempy/image.cpp:162-277", "stempy/image.cpp:280-333", "python/image.cpp:581-590"]}
{"id": "C99", "title": "The functions on raw data give the results of the frames in the sector files, call after call", "statement": "A program that calls create_stem_images, create_stem_histogram, calculate_average, radial_sum and maximum_diffraction_pattern with one SectorReader, with valid arguments, in any order and number, gets from every call on a new reader, or on one rewound after the call before, the result for exactly the frames that are in the files: one for each position of which there is a record, with the pixels of its sectors in their places and zeros for sectors that are missing. A call without a rewind finds nothing to read: it raises an exception, or has undefined behaviour in the case of averages and maxima.", "quantifier": "all sets of whole sector files with at most one record of each position in a sector, in any order; both layouts; all sequences of calls and rewinds; all valid arguments; all schedules of the pools", "why_tests_cant": "Tests call one function on one small file; they do not use a reader again, do not mix files whose records are in different order and cannot try all sequences of calls.", "anchors": ["stempy/reader.cpp:418-489", "stempy/reader.cpp:557-567", "stempy/reader.h:91-135", "python/stempy/image/__init__.py:15-195", "python/stempy/image/__init__.py:354-400", "stempy/image.cpp:162-277"]}
{"id": "C100", "title": "The line searches of the bundled least squares library return a length in their bounds that does not increase the error", "statement": "Armijo backtracking and the increasing line search return for all errors, states and directions one length, which is between the smallest and the largest length; the limit of the iterations is respected; and the error after a step of this length in a direction of descent is not larger than before. The setters accept exactly the parameters that are in range.", "quantifier": "all error functions over any ordered field, of any dimensions, with or without a Jacobian; all states, directions, bounds and factors", "why_tests_cant": "Whether a loop ends for every function cannot be tested, and the lengths returned without an evaluation of the error only do harm for functions with the right shape.", "anchors": ["thirdparty/least-squares-cpp/include/lsq/armijo_backtracking.h:18-115", "thirdparty/least-squares-cpp/include/lsq/increasing_line_search.h:14-70", "thirdparty/least-squares-cpp/include/lsq/line_search_algorithm.h:18-70"]}
{"id": "C101", "title": "The optimizers of the bundled least squares library return a state whose error is not larger than that of the initial state", "statement": "optimize of Gauss-Newton, gradient descent and Levenberg-Marquardt returns within the limit of the iterations; the reported error is the error of the reported state, and it is not larger than the error of the initial state; converged says that the next step is at most eps long. Linear errors are minimized exactly by one Gauss-Newton step, with a given Jacobian or with finite differences.", "quantifier": "all error functions, states, solvers, limits, dampings and line searches; real numbers or any ordered field", "why_tests_cant": "Termination and descent are statements about all functions; tests run a few of them, with the default parameters.", "anchors": ["thirdparty/least-squares-cpp/include/lsq/optimization_algorithm.h:18-220", "thirdparty/least-squares-cpp/include/lsq/levenberg_marquardt.h:18-106", "thirdparty/least-squares-cpp/include/lsq/gauss_newton.h:18-50", "thirdparty/least-squares-cpp/include/lsq/gradient_descent.h:18-45", "thirdparty/least-squares-cpp/include/lsq/error_function.h:15-95"]}
{"id": "C102", "title": "normalizeAngle returns the angle in (-pi, pi] that is equal modulo 2 pi", "statement": "normalizeAngle returns for every angle the only angle in (-pi, pi] that differs from it by a multiple of 2 pi; equals and iszero compare the distance with the tolerance.", "quantifier": "all angles, finite or not; exact arithmetic and double precision with rounding to nearest; all numbers of the format from 3 to 3.5 for pi", "why_tests_cant": "The loop for a huge angle does not end, so a test would hang; the bound from which this is so follows from the spacing of the floating point numbers.", "anchors": ["thirdparty/least-squares-cpp/include/lsq/math.h:13-36"]}
{"id": "C103", "title": "The functions of H5ReadWrite report success exactly if the HDF5 calls they depend on succeeded", "statement": "If a function of H5ReadWrite reports success, the file was open and every call of the library it made succeeded; if a function that writes reports a failure, the file was not open or a call failed. A type, a list of children or a part of a data set is reported only if it could be read.", "quantifier": "all member functions, all states of the library, all sequences of results of its calls", "why_tests_cant": "Failures of single library calls in the middle of a function do not occur in tests; there is no way to inject them.", "anchors": ["h5cpp/h5readwrite.cpp:87-507", "h5cpp/h5readwrite.cpp:566-742", "h5cpp/h5readwrite.cpp:932-1011"]}
{"id": "C104", "title": "stempy.io.reader makes the reader of the version, backend and number of threads that are asked for, or raises", "statement": "reader(path, version, backend, **options) either returns a reader that reads the given version with the given backend and the given number of threads, or raises; and a reader that was returned can be iterated.", "quantifier": "all versions, backends, options, numbers of files, files that cannot be opened, and results of hardware_concurrency", "why_tests_cant": "Tests call reader with valid combinations only; arguments that are ignored do not show, as the data are the same.", "anchors": ["python/stempy/io/__init__.py:177-210", "python/io.cpp:67-135", "stempy/reader.cpp:54-88", "stempy/reader.cpp:290-315", "stempy/reader.cpp:754-797", "stempy/reader.cpp:833-851"]}
{"id": "C105", "title": "Counting on several MPI ranks, from the bytes of the sector files to the STEM images", "statement": "electron_count with the multi-pass reader on several MPI ranks, started on the bytes of the sector files: every rank opens all files, reads the first header and the headers of its share of the files, the indexes are gathered, and every rank reads and counts its share of the positions on its own streams. Whenever the scan has at least thresholdNumberOfBlocks complete frames this never gets stuck, has no undefined behaviour, terminates, and rank 0 returns data whose frames and STEM images, also after saving and loading, are those of the frames whose records were written to the files, equal to those of one process with the same thresholds.", "quantifier": "all lists of sector files of complete records with the first file not empty and at most one frame per scan position; all values of headers and pixels that fit their fields; all numbers of ranks, threads and sample blocks; all schedules of the header passes, threads and messages; with and without dark reference, gain and row dark correction", "why_tests_cant": "The tests of the repository run on one process; the states of the streams of all ranks over two passes, and the order of the messages, cannot be enumerated.", "anchors": ["stempy/reader_mpi.cpp:94-142", "stempy/reader.h:683-757", "stempy/reader.h:814-834", "stempy/reader.cpp:854-894", "stempy/electron.cpp:563-836", "stempy/electron_mpi.cpp:39-211"]}
{"id": "C106", "title": "com_sparse fills positions without events with the mean, up to rounding, in both versions", "statement": "com_sparse with replace_nans in floating point: in both versions the pixels of positions with events are as without replace_nans, and every other pixel is the exact mean of the exact centers of mass up to n + 3 relative errors of 2^-23 for n scan positions, whatever the order in which np.nanmean adds. Only an array without any events gives NaNs.", "quantifier": "all counted arrays of at most 2^24 scan positions and frames of at most 32768 columns for which the centers of mass are right without replace_nans (C95: all arrays without cropping); all rounding modes; all orders of summation", "why_tests_cant": "The tests compare the versions for one data set; the errors depend on the data, the rounding mode, and the order of summation, which NumPy does not specify.", "anchors": ["python/stempy/image/__init__.py:402-477", "python/stempy/image/__init__.py:480-521", "python/stempy/image/__init__.py:524-576"]}
{"id": "C107", "title": "The mean of a sparse array is the floating point number closest to the exact mean", "statement": "SparseArray.mean in np.float32 (the default) and np.float64, over the scan axes, the frame axes, or with permission over any axes, returns for each group of elements the number of the type which is closest to the exact mean of the dense array, with the type promotion of NumPy 1 and of NumPy 2 (which rounds twice), whatever the order of summation; over all axes an np.float64. Without permission it raises FullExpansionDenied, and with an integer type it never returns an array.", "quantifier": "all well-formed sparse arrays, all axes, both floating point types, both rules of promotion, provided that no sum and no number of elements exceeds two to the number of digits of the type (2^24 for np.float32)", "why_tests_cant": "A test has few sums and one version of NumPy; whether rounding twice can differ from rounding once is a question about all quotients.", "anchors": ["python/stempy/io/sparse_array.py:479-517", "python/stempy/io/sparse_array.py:520-558", "python/stempy/io/sparse_array.py:29-46"]}
{"id": "C108", "title": "The correction of the descan moves the frames so that the beam is at the same place everywhere", "statement": "The notebook vacuum_scan_subtract moves every frame of a scan position by the shift of the position: each pixel of the new frame is the pixel one shift away, or 0 outside of the frame, and nothing else is changed. For the vacuum scan itself the centers of mass of all positions are then within half a pixel of the same point. For another scan, the shift of a position is the rounded deviation of the image of the vacuum scan, interpolated at the point which belongs to the position.", "quantifier": "all scan and frame shapes, all events, all shifts of any size, all filters and interpolations", "why_tests_cant": "The notebook is not tested at all, and it is used with square scans and square frames only.", "anchors": ["examples/vacuum_scan_subtract.ipynb:176-176", "examples/vacuum_scan_subtract.ipynb:287-313", "examples/vacuum_scan_subtract.ipynb:387-424", "examples/vacuum_scan_subtract.ipynb:438-455"]}
{"id": "C109", "title": "Radial sums add up to the annular STEM images of the same data", "statement": "For the same data and the same center of the diffraction pattern, the sum of the radial sum over the radii of an annulus is the STEM image for the inner and outer radius of the annulus, at every scan position: for raw frames with the radial sum of the C++ code in every execution of both functions, and for sparse data with the bins of radial_sum_sparse (65535 per event), as the notebook radial_sum_display makes its bright field images.", "quantifier": "all frames and events, all frame and scan sizes, all centers and radii, all schedules of the threads", "why_tests_cant": "The two functions are tested one by one on the same small data, with one center and without pixels on the circles; no test compares them.", "anchors": ["stempy/mask.cpp:9-36", "stempy/image.cpp:378-427", "stempy/image.cpp:477-581", "python/stempy/image/__init__.py:75-83", "python/stempy/image/__init__.py:689-715", "examples/radial_sum_display.ipynb:122-164"]}
{"id": "C110", "title": "Different functions for the same image of sparse data agree", "statement": "For the same sparse data: the virtual dark field of a round aperture, without that of a smaller one around the same point, is the annular STEM image; the STEM image is that of a reader with the dense frames of the array, in every execution; calculate_sum_sparse, mask_real_space with all positions and the sum over the scan axes are the same image; and the apertures of virtual_darkfield are around the documented point.", "quantifier": "all sparse arrays, all scan and frame sizes, all radii and centers, all schedules of the threads for the reader", "why_tests_cant": "The functions are tested one by one, on one data set with square frames; their results are not compared with each other.", "anchors": ["python/stempy/image/__init__.py:75-83", "python/stempy/image/__init__.py:668-686", "python/stempy/image/__init__.py:806-849", "python/stempy/image/__init__.py:900-918", "stempy/image.cpp:40-52", "stempy/image.h:59-110", "python/stempy/io/sparse_array.py:479-517"]}
{"id": "C111", "title": "Sequences of operations on a sparse array are those on the dense array", "statement": "Slicing, indexing with arrays and masks, binning positions, binning pixels, reshaping, flattening, and saving and loading a sparse array any number of times in any order gives an array in the current format whose dense array (and whose sums and means) are those of the same operations on the dense array; bins of bins are bins by the product; bins of positions and of pixels commute; and if nothing is removed the total of the counts does not change.", "quantifier": "all sparse arrays in the current format, all finite sequences of operations and their arguments", "why_tests_cant": "The tests apply one or two operations to one data set with square frames; that the result of each operation is again an array every other operation works with is an invariant over sequences of any length.", "anchors": ["python/stempy/io/sparse_array.py:174-282", "python/stempy/io/sparse_array.py:339-382", "python/stempy/io/sparse_array.py:560-716", "python/stempy/io/sparse_array.py:781-990"]}
{"id": "C112", "title": "If the thresholds cannot be computed, the counting ends on all MPI ranks", "statement": "If the computation of the thresholds on rank 0 throws, the calls of electronCount end on all ranks, by an exception or with a result; no rank waits forever.", "quantifier": "all numbers of ranks, threads and samples, all files, all failing computations, all interleavings of threads and messages", "why_tests_cant": "The tests do not run MPI, and a failing computation of the thresholds is not in them; that a rank waits forever is a statement about all continuations of an execution.", "anchors": ["stempy/electron.cpp:695-739", "stempy/electron_mpi.cpp:185-211", "stempy/electronthresholds.cpp:132-133", "stempy/electronthresholds.cpp:166-168"]}
{"id": "C113", "title": "Counting with the single-pass threaded reader counts each complete frame exactly once", "statement": "Electron counting whose frames come from the single-pass threaded reader ends without undefined behaviour, and every frame with all its sector records is then counted once, with the thresholds of the samples, and stored at its position; nothing else is stored.", "quantifier": "all data files with at most four records per frame number, all numbers of threads and sample blocks, and all interleavings of the reader, the counting tasks and the calling thread", "why_tests_cant": "The tests run the counting with one reader and one schedule; the combination of the reader's cache and locks with the queue of samples has schedules no test can enumerate, and reading the first element of an empty vector need not be visible.", "anchors": ["stempy/electron.cpp:563-836", "stempy/reader.h:375-481", "stempy/reader.cpp:798-831"]}
{"id": "C114", "title": "Functions on one reader of stream or HDF5 files use exactly the blocks not read since the last rewind", "statement": "In any program that reads blocks, rewinds, counts electrons and calls the functions on raw data with one reader of stream files or of an HDF5 file, also after calls that raised, every read gives the next block of the files, and every image, histogram, average, radial sum and maximum is that of the frames not read since the reader was opened or rewound; electron counting uses all frames. With nothing left the call raises an error.", "quantifier": "all lists of stream files of the formats 1 to 3 and all HDF5 files of raw data, all finite sequences of operations, all arguments and all schedules of the threads", "why_tests_cant": "The tests call one function once per reader; the state a call leaves behind, above all one that raised, is only seen by what is called later, in one of infinitely many orders.", "anchors": ["stempy/reader.cpp:222-276", "stempy/reader.h:90-140", "python/pyreader.cpp:22-76", "python/stempy/io/__init__.py:24-62", "python/stempy/image/__init__.py:15-195", "python/stempy/image/__init__.py:267-400"]}
{"id": "C115", "title": "Sector files read to the end: each pixel in the file reaches its place in the frame, also of cut files", "statement": "For a sector file of any bytes the sector readers make one pass per record whose header has begun; each header is that of its record, every byte of a pixel in the file is written to the place of that pixel on the detector and no other byte of the frame changes; the reading ends without undefined behaviour. So in every frame of four sectors delivered by the threaded reader each pixel is that of the file, or zero where the file ends before it.", "quantifier": "all files of any bytes and any length, both layouts, all sectors, all contents of the frames; for delivered frames all numbers of files and threads and all schedules", "why_tests_cant": "A file can be cut at each of its bytes, and the state bits of the stream decide what the later reads do; the tests read whole files.", "anchors": ["stempy/reader.cpp:331-368", "stempy/reader.cpp:418-470", "stempy/reader.cpp:491-529", "stempy/reader.cpp:798-831", "stempy/reader.h:378-481"]}
{"id": "C116", "title": "The single-pass threaded reader can be used again after a rewind", "statement": "Each call of readAll after a rewind delivers the frames of the files as the first one does: those with four records, once and with their own records, and its future waits for the threads.", "quantifier": "all files with at most four records per frame number, all numbers of calls and threads, all schedules", "why_tests_cant": "What is left in the cache depends on the records of all former calls; the tests make one reader for each pass.", "anchors": ["stempy/reader.h:378-481", "stempy/reader.cpp:557-567", "stempy/reader.cpp:798-831"]}
{"id": "C117", "title": "Frames of any element type and number of axes are read through a PyReader with their values", "statement": "The pixel (x, y) of image i of each block that a PyReader returns, as it is used by the functions of C++, is the element [lo + i, y, x] of the data set, for every element type of the data and every layout of the array; data it cannot represent are an error.", "quantifier": "all element types (integers of any width and sign, floating point formats, both byte orders), shapes, strides, blocks and values", "why_tests_cant": "The tests read uint16 data sets only; a conversion that loses bits, or an array with another number of axes, is no error.", "anchors": ["python/pyreader.cpp:22-59", "python/stempy/io/__init__.py:152-174"]}
{"id": "C118", "title": "Keyword arguments of the reductions of a sparse array", "statement": "sum, max, min and mean of a sparse array with the arguments dtype, keepdims and initial return what the methods of the dense array return with the same arguments, over all axes.", "quantifier": "all sparse arrays, axes and values of the arguments (unsigned types)", "why_tests_cant": "The tests compare the reductions without further arguments, and with small sums; arguments that are not used only print a warning.", "anchors": ["python/stempy/io/sparse_array.py:12-72", "python/stempy/io/sparse_array.py:384-558"]}
{"id": "C119", "title": "Sizes of the gathered sample blocks", "statement": "Gathering the sample blocks on rank 0 either gives the blocks of all ranks or raises the exception for too much data, whatever the sizes of the messages.", "quantifier": "all numbers of ranks, and blocks of all sizes on every rank", "why_tests_cant": "The case needs messages of 2^31 bytes in all, on several ranks; overflow of a signed sum is not visible in a run.", "anchors": ["stempy/electron_mpi.cpp:122-183"]}
{"id": "C120", "title": "Sizes of the gathered index", "statement": "Merging the index of sector locations of the ranks gives the merged index for scans of all sizes.", "quantifier": "all numbers of ranks, indexes and sizes of the scan", "why_tests_cant": "The case needs scans of millions of positions on several ranks; overflow of a signed sum is not visible in a run.", "anchors": ["stempy/reader_mpi.cpp:117-128", "stempy/reader_mpi.cpp:144-214"]}
