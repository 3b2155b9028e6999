CLAIMS=[
("C01","proved",["C01_mask","C01_default_center","C01_wraps"],"Mask pointwise equals the annulus spec for all shapes in C++ integer range; C01_wraps shows the 32-bit size bound is needed."),
("C02","proved",["C02_dense","C02_run_exists","C02_duplicate_depends_on_schedule"],"For every block grouping and every interleaving of the pool tasks."),
("C03","proved",["C03_sparse","C03_sparse_exact","C03_out_of_range"],"uint64 accumulation modelled; exact below 2^48 events."),
("C04","proved",["C04_masks","C04_dense","C04_sparse"],"Masks, dense and sparse images."),
("C05","proved",["C05_dense_error","C05_dense_no_error","C05_dense_size","C05_sparse_error","C05_dense_images","C05_sparse_images"],"Error priority, converse, number, size and order of the images (dense: the order is that of C02_dense)."),
("C06","proved",["C06_bins","C06_total","C06_container_total"],"Any linear order; container edges over exact rationals (for double precision see C94)."),
("C07","proved",["C07_average","C07_average_order"],"Exact rational average; block size within the 32-bit index range."),
("C08","proved",["C08_radial","C08_conservation","C08_radial_total","C08_out_of_scan"],"Every interleaving of atomic additions; center anywhere; exact integer ceil(sqrt)."),
("C09","proved",["C09_maximum","C09_maximum_order"],"Exact rational subtraction of the dark reference."),
("C10","proved",["C10_maxima","C10_wide_frame_undefined"],"Iff characterisation, order and uniqueness. C10_wide_frame_undefined shows that a side of 65536 is a division by zero."),
("C11","proved",["C11_not_adjacent","C11_bound"],"For any asymmetric comparison of pixels."),
("C12","proved",["C12_stream_gain","C12_stream_u16","C12_classic_gain","C12_classic_u16","C12_rowdark_gain","C12_single_pixel_exception","C12_negative_threshold_exception","C12_classic_no_dark_undefined"],"Both counting paths, both pixel types. The exceptions show that the hypotheses (two pixels, non-negative threshold, a dark reference for the block-wise path) are needed."),
("C13","proved",["C13_classic","C13_once","C13_duplicate_lost","C13_events","C13_errors","C13_out_of_scan"],"Every block stream."),
("C14","partial",["C14_rowdark_gain_partial","C14_rowdark_u16_partial","C14_mean","C14_median","C14_rowdark_gain_exact","C14_rowdark_u16_exact","C14_not_square","C14_nonsquare_false","C14_width_one_median_undefined"],"True for square frames. For every other shape (both sides at least 2) it is false: C14_not_square, since the code swaps width and height; the _exact theorems say what is computed for every shape."),
("C15","partial",["C15_gain_partial","C15_u16_partial","C15_real_partial","C15_values","C15_iff","C15_fractional_false","C15_dark_above","C15_fractional_dark_disagrees","C15_dark_above_pixel_disagrees"],"Agreement proved with gain. Without gain C15_values says exactly where the values differ; the paths agree on all frames which the dark values do not exceed by one or more iff the dark values are integral (C15_iff), and a dark value above the pixel by one or more is undefined behaviour in the block-wise path (C15_dark_above). This is for exact differences; with rounding to single precision see C92_paths_iff."),
("C57","partial",["C57_histogram_partial","C57_out_of_bounds","C57_out_of_bounds_reachable","C57_constant_sample","C57_statistics","C57_thresholds","C57_sampling","C57_sample_dark","C57_sample_gain","C57_peak"],"The in-bounds claim is false when a sample lies below mean - xrayThreshold*stdDev (C57_out_of_bounds, reachable with the default parameters); proved otherwise."),
("C16","proved",["C16_exactly_once","C16_stored"],"Every schedule, any number of workers; counting and threshold functions are parameters (their own properties are C10-C15, C57). Covers executions without undefined behaviour up to the return; C19 says when that can occur."),
("C17","proved",["C17_uniform","C17_events"],"Padding function for all inputs; C16_exactly_once states it for the returned data."),
("C18","proved",["C18_progress","C18_termination","C18_hang","C18_zero_blocks","C18_single_pass_reader"],"Progress plus a step bound (up to spurious wake-ups) give termination; C18_hang is the converse. C18_single_pass_reader: with the single-pass threaded reader the complete flags are never set, so the call cannot return."),
("C19","partial",["C19_race_free_partial","C19_one_appender","C19_race","C19_iff","C19_all_samples"],"Race freedom proved when no two frames share a scan position. C19_iff says exactly for which frames a race can happen (the reader may deliver them in any order): two frames share a position, there are enough complete frames for the samples, and the two are not both needed as samples. C19_race is an execution with two frames at a position where the calling thread and a worker append at the same time, so the unrestricted property is false."),
("C20","proved",["C20_exactly_once","C20_shutdown","C20_zero_threads","C20_rejected","C20_no_lost_wakeup","C20_progress","C20_termination"],"Small-step machine of ThreadPool.h with spurious wake-ups; a pool with no threads never runs a task (C20_zero_threads)."),
("C58","partial",["C58_stem","C58_progress","C58_radial_false","C58_radial_partial"],"Proved for STEM images. For radialSum C58_radial_false proves the property false: the result is released before the pool is joined; C58_radial_partial covers the executions without a read error."),
("C21","proved",["C21_round_trip"],"Byte-level model of the files; formats 1-3, records may not span files (the writer does not do this)."),
("C22","proved",["C22_truncation","C22_missing_file","C22_middle_file_cut"],"Cut of the last file at any byte. C22_middle_file_cut shows that a cut of another file is not detected."),
("C23","proved",["C23_rewind"],"Any sequence of reads and rewinds."),
("C24","proved",["C24_assembly","C24_count","C24_coordinates","C24_bad_sector"],"Any files whose headers are complete; C24_bad_sector shows that sector numbers 0-3 are needed."),
("C25","proved",["C25_place_v4","C25_place_v5","C25_tiling_v4","C25_tiling_v5","C25_frame_v4","C25_frame_v5","C25_missing_v4","C25_missing_v5"],"Both layouts, any order of arrival of the sectors."),
("C26","partial",["C26_rewind_partial","C26_rewind_after_end","C26_rewind_exact","C26_rewind_iff","C26_rewind_false"],"C26_rewind_exact: the number of frames of each position after any history. For files with all sectors the rewound reader returns what a new one returns iff no incomplete frame is cached (C26_rewind_iff), since the cache is not cleared; otherwise a position is returned twice."),
("C27","proved",["C27_exactly_once","C27_pixels_v4","C27_pixels_v5","C27_progress","C27_termination","C27_exists","C27_five_records","C27_many_records","C27_many_records_exists","C27_freed_iff","C27_stale","C27_race"],"Every schedule, any number of threads. Hypothesis: at most four records per frame number; otherwise a freed frame can be used, unless the records are in one file or there is one thread (C27_freed_iff; what is then delivered: C27_many_records; an old reference stays invalid when the frame is made anew: C27_stale). C27_race: the loop test of the workers is a data race, which the model treats as an atomic read. The user function does not throw."),
("C28","proved",["C28_index","C28_coordinates","C28_schedule_independent","C28_progress","C28_termination","C28_exists","C28_out_of_scan"],"Every schedule, any number of threads; records inside the scan, sectors 0-3, no two records of the same position, frame and sector. C28_out_of_scan shows that the first hypothesis is needed."),
("C29","proved",["C29_exactly_once","C29_content","C29_pixels","C29_progress","C29_termination","C29_exists"],"Every schedule, with the mutexes and positions of the shared streams; files are complete records."),
("C30","proved",["C30_frames","C30_error","C30_num_frames"],"All indices, all positions."),
("C31","partial",["C31_second_pass_empty","C31_second_throws","C31_after_access_partial"],"The property is false: a second readAll gives no frame to the user function (C31_second_pass_empty) and ends with future_error (C31_second_throws). C31_after_access_partial: random access before readAll does not change its result."),
("C32","partial",["C32_captured_partial","C32_full_scan","C32_missing_file","C32_cut_counted","C32_cut_header"],"Proved for files of complete records. False for a file cut inside the pixels of its last record, which is still counted (C32_cut_counted); a file cut inside a header is undefined behaviour (C32_cut_header). The expected number is 32-bit; without any record both numbers are 0."),
("C33","proved",["C33_cube","C33_cells","C33_cube_outside","C33_frames","C33_cube_several"],"Frames and cube. The cube theorem is for blocks of one image, which the sector readers produce; C33_cube_several shows that all images of a larger block would go to the cell of the first."),
("C60","proved",["C60_round_trip","C60_stream","C60_cut","C60_cut_pixels","C60_part","C60_files"],"Byte level of the sector files, any number of records, a cut at any byte; C60_cut_pixels says which pixels are there."),
("C34","proved",["C34_exactly_one","C34_samples","C34_zero_share","C34_stable","C34_reinitialized"],"Any number of items and ranks. C34_reinitialized: with fewer positions than ranks, a second request for the index replaces the (empty) share of a rank by the whole scan; C34_stable: otherwise shares stay the same."),
("C35","proved",["C35_events","C35_events_count","C35_events_outside","C35_blocks","C35_blocks_overflow","C35_union","C35_index","C35_merged","C35_exactly_once","C35_exists"],"Through the bytes of the messages. cereal's binary format is assumed (its sources are not in the repository), as are messages small enough for int in gatherScanMap. C35_exactly_once composes the header passes, the gathering and the processing passes of all ranks, for all schedules. C35_blocks_overflow: the check for too much data comes after the signed overflow."),
("C36","proved",["C36_block","C36_not_sent","C36_cut","C36_too_large"],"Blocks of fewer than 2^32 pixels (statement); C36_too_large proves that larger blocks are not reproduced."),
("C37","proved",["C37_all_frames","C37_block_count","C37_hdf5","C37_rewind","C37_zero_block","C37_few_positions"],"Any data set. C37_zero_block and C37_few_positions show that the hypotheses on the block size and the image numbers are needed."),
("C38","partial",["C38_image","C38_radial","C38_block_partial","C38_block_wrong","C38_wide_wrong","C38_tall_outside"],"Images and radial sums proved for every shape. The view of a raw block is right for square frames only (C38_block_partial); the stride uses the height, C38_wide_wrong gives a wrong pixel and C38_tall_outside a read outside of the memory."),
("C40","proved",["C40_sum","C40_duplicate_event"],"Any list of axes (None, scan, frame, or any tuple), the dense result being NumPy's reduction of the dense array. Frames hold every pixel at most once, as the format requires; C40_duplicate_event shows that the frame sum differs from the dense sum otherwise."),
("C41","partial",["C41_max_scan","C41_max_frame_partial","C41_max_frame_false","C41_min_scan","C41_min_frame","C41_mean","C41_other"],"Proved but for the maximum over the frame axes: it raises ValueError as soon as one position has no event (C41_max_frame_false), C41_max_frame_partial is for arrays without such a position. C41_min_scan needs that the counts fit in the dtype. Means are exact rationals."),
("C44","partial",["C44_to_dense","C44_sparse","C44_dense","C44_basic","C44_basic_dense","C44_array_partial","C44_pairs_partial","C44_pairs_dense_partial","C44_mixed","C44_refused","C44_ellipsis_scan","C44_ellipsis_frame_partial","C44_ellipsis_empty","C44_too_many","C44_duplicates_false","C44_duplicates_lost","C44_ellipsis_false","C44_separated_false","Stempy.Numpy.separated_iff","Stempy.Numpy.axesBefore_eq","C44_separated","C44_separated_any_false"],"Proved for all integers and slices (C44_basic and C44_too_many, including the errors), and for all expressions without ellipsis with index arrays or masks that the code accepts (C44_pairs_partial with distinct pixels, C44_pairs_dense_partial for dense results with any pixels; one array, or two arrays that are broadcast, including the errors). The expressions that are not accepted are errors for NumPy too (C44_refused), except for arrays on both the scan and the frames, which are always refused (C44_mixed). False for index arrays that repeat a pixel (C44_duplicates_lost: all copies but the last are empty, for all data), for an integer and an array with a slice between them (C44_separated_false: NumPy puts the axis of the array first; C44_separated: for all such expressions, characterised by separated_iff, NumPy's result is np.moveaxis of that of the sparse array, so that they differ whenever the moved axis and the first axis have different lengths, C44_separated_any_false), and for an ellipsis: among the scan items it is taken for one `:` (C44_ellipsis_scan), in the frame items it is right (C44_ellipsis_frame_partial), and an ellipsis for no axis is refused (C44_ellipsis_empty)."),
("C45","proved",["C45_slice_up","C45_slice_down","C45_slice_zero","C45_int","C45_selection","C45_index"],""),
("C49","proved",["C49_never_full","C49_denied","C49_operations","C49_larger"],"C49_larger: selections larger than the full array, by repeated indexes, are not refused as they have another shape."),
("C39","proved",["C39_v2","C39_v1","C39_v1_as_v2","C39_array","C39_empty","C39_v1_positions"],"C39_v1_positions: the scan positions stored in a version 1 file with repeated events are ignored. C39_empty: files without frames are refused."),
("C42","proved",["C42_bin_scans","C42_total","C42_refused","C42_one_dimension"],"Two-dimensional scans (both scan dimensions); a scan with one dimension is refused with an error (C42_one_dimension)."),
("C43","partial",["C43_events","C43_bin_frames_partial","C43_not_square"],"Proved for square frames. For every frame that is not square the claim is false (C43_not_square): the row is taken as event // rows instead of event // columns, so the last pixel moves to a wrong one or out of the frame."),
("C46","proved",["C46_reshape","C46_dense","C46_ravel","C46_ravel_reshape"],""),
("C47","partial",["C47_round_trip_partial","C47_one_dimension"],"Proved for two-dimensional scans, with the metadata. Scans with one dimension, e.g. after ravel_scans, cannot be saved (C47_one_dimension). Events fit in 32 bits."),
("C48","partial",["C48_flyback","C48_flyback_v1","C48_v2_false","C48_v2_order_false"],"Proved for the current format and for version 1. False for version 2: additional frames of a position are lost (C48_v2_false), and the positions of the frames are not looked at (C48_v2_order_false)."),
("C54","proved",["C54_round_trip","C54_slash"],"The values come back as stored (conversions by h5py are not modelled). C54_slash: a slash in the name of a nested dictionary splits it."),
("C50","partial",["C50_square_partial","C50_versions_agree","C50_shortcut","C50_dense","C50_not_square","C50_large_center"],"Proved for square frames; both sparse versions agree for every shape, and the dense version is right for every shape. For every frame that is not square both sparse versions give a wrong row for some event (C50_not_square): event // rows is used instead of event // columns. Integer crop centers are at most 32768 (C50_large_center: uint32 wrap). Means are exact rationals."),
("C51","partial",["C51_darkfield_partial","C51_not_square","C51_mask","C51_mask_shape","C51_sum","C51_sum_outside","C51_one_dimension"],"The dark field is proved for square frames and false for every other shape (C51_not_square, same cause as C50). The real-space mask and the sum are proved for every shape. A one-dimensional scan is refused (C51_one_dimension)."),
("C52","proved",["C52_bins","C52_one_bin","C52_total","C52_outside"],"Distances and centers are exact rationals."),
("C53","partial",["C53_filter_partial","C53_isolated","C53_border_false"],"Proved except for the first row and column. There the slice starts at -1, and every bad position becomes NaN when the image has at least three rows (columns): C53_border_false."),
("C59","partial",["C59_square_partial","C59_stem","C59_not_square","C59_in_place_false","C59_in_place_witness","C59_sliced_false"],"The dense view is proved for square frames and false for every other shape (C59_not_square: the frame shape is (width, height)). The STEM equality (C59_stem) is proved for every shape of a counting result, but after in-place binning the images are those of the data before (C59_in_place_false), and a sliced array with frames that are not square is decoded with the wrong width (C59_sliced_false)."),
("C55","partial",["C55_found","C55_none","C55_several","C55_errors","C55_version1","C55_version1_found","C55_large_number","C55_version0_partial","C55_version0_false","C55_version0_number_false","C55_version0_suffix_false","C55_number_ignored"],"Proved relative to the name patterns for both versions, and that the returned scan id / number is the requested one for names of version 1. False for names of version 0: scan id 1 returns a file with scan id 12, scan number 1 one with 12, and the standard suffix a centered file; C55_version0_partial has what is left. A scan number given with a scan id is ignored (C55_number_ignored); version 1 files with a scan number of six digits are not found by id (C55_large_number)."),
("C56","partial",["C56_float","C56_small_int","C56_int_partial","C56_unsigned_false","C56_saturating_false","C56_saturating_witness"],"Proved for floating point types, for integers that fit in the precision, and for all integers on machines which do not saturate. False for int32 on machines with saturating conversions (C56_saturating_false) and, as a general cast, from signed to unsigned integers (C56_unsigned_false). Rounding is a parameter with the properties of IEEE 754."),
("C61","partial",["C61_contiguous","C61_block","C61_frames_partial","C61_crop_false","C61_reference_partial","C61_fortran_order","C61_transposed_false","C61_count_partial","C61_one_element","C61_events_partial","C61_events_false"],"Proved for arrays in C order. False for cropped frames (C61_crop_false), for references in Fortran order (C61_transposed_false) and for events taken with a step (C61_events_false): the strides are not used. C61_one_element: a reference with one element is ignored."),
("C62","proved",["C62_sector","C62_none","C62_none_iff","C62_large","C62_directory"],"All paths. C62_large: a number outside of int throws. C62_directory: the name of a directory can give the sector when that of the file has none."),
("C63","partial",["C63_read_partial","C63_read_one_partial","C63_coordinates","C63_all_false","C63_errors"],"Proved when the requested frames exist at the position; no undefined behaviour for any arguments. False for every position with fewer frames than another one: reading all of its frames raises ValueError (C63_all_false), since the number of frames is that of the position with the most frames; negative indexes count from there too."),
("C64","partial",["C64_read","C64_round_trip","C64_whole","C64_default_partial","C64_default_false","C64_outside","C64_stride_zero"],"Proved for given counts and for reading the whole data set. Without counts, (dim - start) / stride elements are read: C64_default_partial says which, C64_default_false that whenever the stride does not divide the distance to the end, one more element could be read. C64_stride_zero: a stride 0 is no error, since the status of the selection is not looked at, and a division by zero without counts."),
("C65","partial",["C65_ends","C65_same_partial","C65_same","C65_prefix","C65_calls","C65_version_zero_false"],"Both loops end for all files. They are the same for the formats 2 and 3 (C65_same), and for format 1 if no header has version 0; otherwise the loop in Python ends before the first such block (C65_prefix, C65_version_zero_false)."),
("C66","proved",["C66_round_trip","C66_fallback","C66_missing","C66_no_overwrite","C66_twice","C66_stem","C66_few_positions"],"C66_few_positions: the number of scan positions is not checked when saving; with fewer of them than frames the file is saved, and reading it is undefined behaviour. Fewer than 2^32 - 32 frames. h5py is modelled as storing what it is given."),
("C67","partial",["C67_dense","C67_run_exists","C67_same","C67_saved","C67_events","C67_errors","C67_no_scan_false"],"Proved for scan dimensions that are given or part of the data (sparse arrays with square frames, see C59 for the others). False without scan dimensions for arrays of events (C67_no_scan_false): there is no exception, and memory outside of the image is written."),
("C68","partial",["C68_module","C68_listed_default","C68_positional_false","C68_shared_false"],"Proved for functions defined with decorators in any module, and calls with keyword arguments for the declared parameters. False for a declared parameter given by position (C68_positional_false: TypeError, always), and for the results of decorating one function twice (C68_shared_false: they have the same PARAMETERS). Functions without *args, **kwargs and defaults of their own."),
("C69","proved",["C69_phase","C69_exact","C69_mean","C69_offset","C69_order"],"Exact real and complex arithmetic; numpy.fft is modelled by the defining sums. C69_order: with the arrays in the order in which com_sparse and com_dense give them, the default arguments lose a phase along the columns axis."),
("C70","partial",["C70_array","C70_average","C70_image","C70_refused","C70_threaded","C70_derived_false","C70_no_image_false","C70_twice_false"],"Proved for plain arrays, the average image itself and images of C++, and for all arrays with threaded readers. False with other readers for arrays derived from the average image (C70_derived_false: their values are ignored, the average image is subtracted), for an ImageArray without image (C70_no_image_false), and for a second call (C70_twice_false: StopIteration, always). The search for the thresholds is an arbitrary function here."),
("C71","partial",["C71_thresholds_partial","C71_one_element_false","C71_maximum","C71_maximum_dark_false"],"Proved except for a gain with one element without dark reference and with an integer factor (C71_one_element_false: the arguments are shifted). maximum_diffraction_pattern with a dark reference raises an exception in every case (C71_maximum_dark_false), as Image<float> is not registered in the module. The conversions of pybind11 are modelled from its documentation and source."),
("C72","partial",["C72_search_partial","C72_square_partial","C72_preprocess","C72_frame_partial","C72_border_false","C72_shape_false","C72_no_dark"],"The preprocessing agrees with the streaming path for all inputs, and for square frames the events are the serial ones without those on the border. The unrestricted property is false: events on the border are always lost (C72_border_false), frames that are not square are searched with the wrong row length (C72_shape_false, and in general C72_search_partial)."),
("C73","proved",["C73_stem","C73_stem_exists","C73_atomic_order","C73_radial"],"Every reduction tree and order; VTK-m itself is external."),
("C74","proved",["C74_residuals","C74_jacobian","C74_sign","C74_unique","C74_two_bins"],"Over the real numbers; the solver is external. C74_two_bins: three distinct bins are needed."),
("C75","proved",["C75_fresh","C75_name","C75_digits","C75_terminates","C75_runs","C75_found"],"The directory is not changed by others between the check and the writing."),
("C76","partial",["C76_lock_partial","C76_exclusive","C76_alive_partial","C76_counts_partial","C76_progress","C76_bound","C76_copy_assign","C76_move_assign","C76_reset","C76_arguments_unlocked","C76_arguments_false","C76_arguments_partial"],"Holds for DataHolder, PyBlock and PyReader together with Python code, for any number of threads and every schedule. False for the array arguments of calculate_thresholds: they are passed by value and destroyed after call_guard has released the lock (C76_arguments_unlocked), so that a count is lost and the array is freed while referenced (C76_arguments_false). With these calls too, nothing else changes a reference count without the lock (C76_arguments_partial)."),
("C77","partial",["C77_round","C77_sum_scan","C77_sum_exact_iff","C77_sum_frame","C77_mean_scan","C77_mean_frame_partial","C77_mean_frame_false","C77_max_partial","C77_min_partial","C77_dense","C77_dense_iff","C77_max_scan_iff","C77_min_scan_iff","C77_extrema_frame_iff","C77_uint8_false"],"Sums in unsigned types are the dense sums modulo 2^bits, exact exactly if these fit. The float32 sums of mean are exact up to 2^24; beyond, events are lost without notice (C77_mean_scan, C77_mean_frame_false), although the sum itself may be representable. The dense array in a type has the counts modulo 2^bits (C77_dense); it and the maxima are right exactly if every count fits the type, the minima exactly under a weaker condition (C77_dense_iff, C77_max_scan_iff, C77_min_scan_iff, C77_extrema_frame_iff), so always if the number of frames per position fits (C77_max_partial, C77_min_partial); C77_uint8_false: with 256 frames and uint8 they are wrong. NumPy's conversions are assumed; overflow of floating point numbers is not modelled."),
("C78","partial",["C78_call_partial","C78_life_partial","C78_no_strings","C78_string_false","C78_reset","C78_move_false"],"Holds for all calls but setAttribute with a string, which never closes the copied type: one identifier more stays open for each string attribute (C78_string_false), and nothing else. C78_move_false: a moved HIDCloser does not close, as its closer is not moved; nothing moves one in this code."),
("C79","partial",["C79_values","C79_slice","C79_slice_metadata","C79_own_frames","C79_repeated_false","C79_bin_frames_values","C79_bin_frames","C79_bin_scans_values","C79_bin_scans_partial","C79_bin_scans_false","C79_in_place","C79_metadata_false"],"Slices and bin_frames share nothing with the array. False for bin_scans: its frames are the arrays of events of the original, for every array with a frame (C79_bin_scans_false); only frames that are replaced and the metadata are separate (C79_bin_scans_partial). False inside of a slice by an array of indexes with repetitions (C79_repeated_false, because deepcopy copies an object once); holds without arrays of indexes (C79_own_frames). In place and not in place agree on events and shapes (C79_in_place) but not on the metadata, which is dropped by everything that is not in place (C79_metadata_false, C79_slice_metadata)."),
("C80","partial",["C80_names","C80_file","C80_reproducible","C80_statistics","C80_rank_partial","C80_rank_false","C80_classic_metadata_false","C80_classic_false"],"Holds for threaded readers, with MPI on rank 0. False for other readers: the metadata are never filled and say that thresholds were calculated and are all zero (C80_classic_metadata_false); the events are not those of the metadata (C80_classic_false). On the other ranks the metadata say that no thresholds were calculated (C80_rank_partial), although those of rank 0 were used (C80_rank_false). The choice of samples, the square root and the fit are external; floating point values are exact."),
("C81","partial",["Stempy.TypedFile.C81_types","Stempy.TypedFile.C81_tree","Stempy.TypedFile.C81_failure","Stempy.TypedFile.C81_paths","Stempy.TypedFile.C81_data_partial","Stempy.TypedFile.C81_created","Stempy.TypedFile.C81_chunks","Stempy.TypedFile.C81_dims","Stempy.TypedFile.C81_attribute_partial","Stempy.TypedFile.C81_no_attribute","Stempy.TypedFile.C81_string","Stempy.TypedFile.C81_children","Stempy.TypedFile.C81_list","Stempy.TypedFile.C81_vector_false","Stempy.TypedFile.C81_empty_false","Stempy.TypedFile.C81_size_false","Stempy.TypedFile.C81_char_false","Stempy.TypedFile.C81_relative_false","Stempy.TypedFile.C81_long_names_false","Stempy.TypedFile.C81_invalid_type_false"],"proved: type maps, tree, failures, paths, strings, lists of names; data for fewer than 2^31 elements and attributes with one number, where char is left out for numbers a signed char does not have. False in general, each with a theorem: an attribute with several numbers (as scan_dimensions) overruns the variable it is read into; an empty vector leaves an attribute although the call fails; data sets of 2^31 elements overflow int when read; char numbers from 128 are changed where char is unsigned; allDataSets of a group gives names which are not paths of the file; names longer than 2047 are cut; an invalid type is taken for the first of the map instead of None."),
("C82","partial",["Stempy.Props.C82_exactly_once","Stempy.Props.C82_stored","Stempy.Props.C82_files","Stempy.Props.C82_progress","Stempy.Props.C82_hang","Stempy.Props.C82_termination","Stempy.Props.C82_race_free_partial","Stempy.Props.C82_exists","Stempy.Props.C82_race_false","Stempy.Props.blocks_order","Stempy.Props.C82_race_any_false","Stempy.Props.C82_one_thread_iff"],"all but the absence of races is proved for every execution, from the header pass on. No race: proved if no position has two frames (C82_race_free_partial); C82_race_false: with two frames at the first position, the first of them complete, and one sample there is always an execution in which two threads append to the same list, already with one thread in the pool (the caller is the other). For any number of samples and threads: such an execution exists whenever the last sample, in the order of the reader (blocks_order), is not the last frame of its position (C82_race_any_false); with one thread exactly then (C82_one_thread_iff). Open: the exact condition for several threads."),
("C83","partial",["Stempy.SectorStreams.C83_headers","Stempy.SectorStreams.C83_first_header","Stempy.SectorStreams.C83_content","Stempy.SectorStreams.C83_exactly_once","Stempy.SectorStreams.C83_progress","Stempy.SectorStreams.C83_termination","Stempy.SectorStreams.C83_file_partial","Stempy.SectorStreams.C83_whole","Stempy.SectorStreams.C83_random","Stempy.SectorStreams.C83_random_partial","Stempy.SectorStreams.C83_in_order","Stempy.SectorStreams.C83_complete_false","Stempy.SectorStreams.C83_sticky_false","Stempy.SectorStreams.C83_threads_false","Stempy.SectorStreams.C83_headers_cut_false","Stempy.SectorStreams.C83_first_header_false"],"for every execution and all bytes C83_content and C83_random say exactly which bytes a block has: the stored ones until a read of the same file met a cut, then none. For files of whole records the claim holds (C83_whole), and for each file without a cut (C83_file_partial). False otherwise: a frame with a cut record is marked complete (C83_complete_false); after it all other sectors from that file are lost, in frames marked complete (C83_sticky_false for loadFrames, C83_threads_false for some execution with any number of threads); a file which ends inside a header makes the header pass use indeterminate values (C83_headers_cut_false), an empty first file the constructor (C83_first_header_false)."),
("C84","partial",["Stempy.StreamingThrow.C84_no_exception","Stempy.StreamingThrow.C84_progress","Stempy.StreamingThrow.C84_termination","Stempy.StreamingThrow.C84_all_sampled","Stempy.StreamingThrow.C84_partial","Stempy.StreamingThrow.C84_asleep","Stempy.StreamingThrow.C84_iff","Stempy.StreamingThrow.C84_exists","Stempy.StreamingThrow.C84_false","Stempy.StreamingThrow.C84_notify_false"],"false: with more complete frames than samples every execution in which the computation fails ends with undefined behaviour (C84_false with C84_progress and C84_termination), since nothing waits for the workers; with exactly enough frames it depends on the schedule (C84_notify_false, C84_exists). C84_partial: no undefined behaviour if all workers are in the reader and no frame is left when the exception is thrown; C84_all_sampled: this is the only way; C84_iff: the exact condition at the exception; C84_asleep: a waiting worker makes it undefined at once. C84_no_exception: executions without exception are those of C16 to C19."),
("C85","proved",["Stempy.Props.C85_images","Stempy.Props.C85_images_gain","Stempy.Props.C85_images_rowdark","Stempy.Props.C85_exact","Stempy.Props.C85_same_images","Stempy.Props.C85_returns","Stempy.Props.C85_exists"],"composition of C28, C82, C25, C12, C59, C47 and C03 from the records of the files to the pixels of the images. C85_exists: such executions exist for files with one frame per position and enough complete frames. With several frames at a position executions may have a data race (C82_race_false); the theorems are about those that return."),
("C86","partial",["Stempy.FloatPixels.C86_plain","Stempy.FloatPixels.C86_rowdark","Stempy.FloatPixels.C86_plain_partial","Stempy.FloatPixels.C86_rowdark_partial","Stempy.FloatPixels.C86_mean","Stempy.FloatPixels.C86_median","Stempy.FloatPixels.C86_false","Stempy.FloatPixels.C86_missing_false","Stempy.FloatPixels.C86_dark_false","Stempy.FloatPixels.C86_missing_sector_false","Stempy.FloatPixels.C86_gain_false","Stempy.FloatPixels.C86_no_gain_undefined","Stempy.FloatPixels.C86_infinite"],"C86_plain and C86_rowdark are exact: a pixel is counted iff it is a peak and no neighbour is NaN. The partial theorems are the claim for finite references and half rows whose statistic is not zero, where the result also is that of the model without special values. False: C86_missing_sector_false (with a gain, no electron in the rows next to a missing sector of an incomplete frame is counted), C86_missing_false, C86_gain_false (the same for NaN gains), C86_dark_false (NaN in the dark reference), C86_false (an electron that is lost), C86_no_gain_undefined (without gain, the conversion of the product to uint16_t is undefined)."),
("C87","partial",["Stempy.Props.C87_exact","Stempy.Props.C87_images_partial","Stempy.Props.C87_images_u16_partial","Stempy.Props.C87_bytes_partial","Stempy.Props.C87_in_step","Stempy.Props.C87_sample","Stempy.Props.C87_lost","Stempy.Props.C87_false"],"C87_exact says exactly what is stored at each position, by the number of sectors of the position in the cache at the rewind. The partial theorems are the claim, up to the sparse array, the file and the images, when these and the records of the position are not more than four together; C87_bytes_partial: the same from the bytes of the files, also if they end inside of the pixels of a record. C87_in_step: this holds for any number of blocks if the four files have the same positions in the same order. False: C87_lost (else there is no event in the strips of the sectors read first, whatever their pixels are), C87_false (a file whose bright pixel is counted with no block for the thresholds and not with one, for the same thresholds)."),
("C88","proved",["Stempy.Props.C88_stream","Stempy.Props.C88_stream_u16","Stempy.Props.C88_hdf5","Stempy.Props.C88_hdf5_u16","Stempy.Props.C88_stream_sample","Stempy.Props.C88_hdf5_sample","Stempy.Props.C88_format2","Stempy.Props.C88_empty","Stempy.Props.C88_options"],"CountedFrames is the claim: the only result, its events, and the array, file and images. C88_format2: every block of format 2 has the numbers 0 to 1599 (reader.cpp:162-165), so that of several blocks only the last is in the result. Images for square frames. C88_options: errors of the computation of the thresholds. A gain with dark reference, or integer pixels with a dark reference between -1 and 1."),
("C89","partial",["Stempy.Props.C89_gain_partial","Stempy.Props.C89_u16_partial","Stempy.Props.C89_in_step","Stempy.Props.C89_lost","Stempy.Props.C89_false"],"SameResults is the claim. Proved for files in step and, more generally, whenever the cache of the block-wise reader does not hold too many sectors of a position at the rewind; with gain, or without gain for a dark reference which is not above 0 (C15 has the others). C89_lost: otherwise the two results differ as soon as the frame has an event in a strip of a sector that is read first; C89_false: an instance with an execution of both."),
("C90","proved",["Stempy.Props.C90_images","Stempy.Props.C90_images_gain","Stempy.Props.C90_images_rowdark","Stempy.Props.C90_headers_progress","Stempy.Props.C90_headers_termination","Stempy.Props.C90_progress","Stempy.Props.C90_termination","Stempy.Props.C90_race_free","Stempy.Props.C90_hang","Stempy.Props.C90_exists","Stempy.Props.C90_empty_first","Stempy.Props.C90_backends"],"simulation between the machine on bytes and streams and the machine on records (both directions), over the header pass, the rewind and the counting; composes C60, C83, C28, C82 and C85. C90_empty_first and C90_hang show that the hypotheses on the first file and on the number of complete frames are needed; C90_backends: block-wise counting of the same bytes. With row dark correction no half row may have the statistic 0 (C86 has the others)."),
("C91","partial",["Stempy.Props.C91_exactly_once_partial","Stempy.Props.C91_files_partial","Stempy.Props.C91_images_partial","Stempy.Props.C91_images_gain_partial","Stempy.Props.C91_images_rowdark_partial","Stempy.Props.C91_same_images_partial","Stempy.Props.C91_no_failure","Stempy.Props.C91_race_free_partial","Stempy.Props.C91_progress","Stempy.Props.C91_termination","Stempy.Props.C91_exists","Stempy.Props.C91_iff","Stempy.Props.C91_returns","Stempy.Props.C91_hang","Stempy.Props.C91_files_hang","Stempy.Props.C91_empty_share_false","Stempy.Props.C91_few_samples_false"],"false: rank 0 never returns if the positions of one rank have fewer complete frames than its share of the samples, however many the others have (C91_hang, C91_files_hang, C91_empty_share_false), or if there are three or more ranks and fewer samples than ranks, when some rank reads sampleBlocks[0] of an empty vector (C91_few_samples_false). Otherwise: exactly once and the images for all files, ranks, threads and schedules (C91_exactly_once_partial, C91_files_partial, C91_images_partial), no deadlock and termination if every share has enough complete frames (C91_progress, C91_termination, C91_exists, C91_returns), no race if no two frames have the same position (C91_race_free_partial; else see C82_race_false). Not covered: two ranks with one sample."),
("C92","partial",["Stempy.RoundedCounting.C92_gain_values","Stempy.RoundedCounting.C92_paths_partial","Stempy.RoundedCounting.C92_sound_partial","Stempy.RoundedCounting.C92_gain_partial","Stempy.RoundedCounting.C92_uniform_partial","Stempy.RoundedCounting.C92_exact_partial","Stempy.RoundedCounting.C92_stream_u16","Stempy.RoundedCounting.C92_classic_u16_values","Stempy.RoundedCounting.C92_classic_u16_partial","Stempy.RoundedCounting.C92_paths_iff","Stempy.RoundedCounting.C92_rowdark_u16","Stempy.RoundedCounting.C92_rowdark_gain","Stempy.RoundedCounting.C92_mean","Stempy.RoundedCounting.C92_mean_u16","Stempy.RoundedCounting.C92_rowdark_u16_partial","Stempy.RoundedCounting.C92_rowdark_gain_partial","Stempy.RoundedCounting.C92_lost_false","Stempy.RoundedCounting.C92_threshold_false","Stempy.RoundedCounting.C92_classic_false","Stempy.RoundedCounting.C92_dark_false","Stempy.RoundedCounting.C92_mean_false","Stempy.RoundedCounting.C92_rowdark_false","Stempy.RoundedCounting.C92_median","Stempy.RoundedCounting.C92_null_false","Stempy.RoundedCounting.C92_no_gain_undefined","Stempy.RoundedCounting.C92_rowdark_values","Stempy.RoundedCounting.C92_zero_statistic_false"],"false: with gain, neighbours with different values are rounded to the same value and both are lost, in every rounding mode and for every frame size (C92_lost_false); a value is rounded onto a threshold (C92_threshold_false); the order of neighbours is exchanged by the rounded dark subtraction (C92_dark_false); without gain a tiny dark value is rounded away (C92_classic_false) and row dark correction loses an electron (C92_rowdark_false); the sum of a half row stops at 2^24 (C92_mean_false); a half row with the statistic zero loses its electrons with gain (C92_zero_statistic_false) and is undefined without (C92_no_gain_undefined); block-wise counting without dark reference reads a null pointer (C92_null_false). True, in every rounding mode: for one gain for all pixels and integral dark values, or values which differ by a part in 2^22, away from the thresholds (C92_uniform_partial, C92_gain_partial; without that, no wrong pixel is counted, C92_sound_partial), for the median of a half row (C92_median), for exactly representable results (C92_exact_partial, C92_rowdark_u16_partial, C92_rowdark_gain_partial), and for the streaming path without gain (C92_stream_u16). With rounding to nearest the two paths agree without gain iff the dark values are integral or at most 2^-25 (C92_paths_iff). Not covered: the mean of longer half rows, the rounding of the thresholds themselves."),
("C93","partial",["Stempy.EvenReads.C93_partial","Stempy.EvenReads.C93_cache","Stempy.EvenReads.C93_memory","Stempy.EvenReads.C93_wait","Stempy.EvenReads.C93_false","Stempy.EvenReads.C93_memory_false"],"false with two or more threads: while one thread reads the first record of a file, the others can read all other files to their ends (C93_false), and then all frames of the file are in memory (C93_memory_false). True with one thread (C93_partial; memory: C93_cache, C93_memory). With any number of threads a waiting stream is never overtaken by more than one record (C93_wait). Not covered: the wrap-around of readCount after 2^32 reads."),
("C94","partial",["C94_partial","C94_divides","C94_pow_two","C94_total","C94_iff","C94_lost","C94_down","C94_false","C94_overflow","C94_counters","C94_counters_partial","C94_blank_false"],"false in rounding to nearest with 49 bins and pixels which are 0 or 2^k: none of the bright pixels is counted (C94_false). In any rounding mode: no pixel is counted twice and the lost ones are those above the last edge (C94_total, C94_iff); for pixels below 2^50 these are none or all pixels of the largest value (C94_lost); nothing is lost if the bin length is a double (C94_partial), for instance if the number of bins divides the range (C94_divides) or is a power of two (C94_pow_two); for rounding down this is exact (C94_down). 2^31 - 1 bins overflow the loop over the edges (C94_overflow). The int counters overflow exactly if a bin has 2^31 pixels or more (C94_counters; not with fewer than 2^31 pixels, C94_counters_partial; always for that many equal pixels, C94_blank_false). Not covered: contraction into fused operations."),
("C95","partial",["C95_no_crop","C95_center_partial","C95_few_partial","C95_false","C95_v0_false","C95_fraction_false"],"true without cropping (C95_no_crop), with an integer radius around a given center with few binary places (C95_center_partial; an integer center has none) and around the center of mass if the number of events at each position divides a power of two (C95_few_partial), for all rounding modes. False for cropping around the center of mass in general, in rounding to nearest: version 1 drops all events and returns NaN where version 0 is right (C95_false) and version 0 drops events where version 1 is right (C95_v0_false), for every frame width from 7 on. A radius that is not an integer is rounded to single precision by version 1 and can then differ around the integer center (0, 0) too (C95_fraction_false). Not covered: more than 2^53 as product of events and width, cropping around the center of mass for other numbers of events whose distances are not near the radius."),
("C96","proved",["C96_mask_exact","C96_mask","C96_radial","C96_average","C96_average_empty","C96_radial_sharp","C96_average_sharp","C96_average_sharp_value"],"in every rounding mode, with pow rounded correctly or in any other direction (a separate parameter). The bounds on the radius and on the number of frames are those of the type: beyond them the radius and the average are wrong in rounding to nearest (C96_radial_sharp, C96_average_sharp)."),
("C97","partial",["C97_mean","C97_variance","C97_variance_single","C97_histogram_partial","C97_deviation","C97_out_of_bounds","C97_false","C97_constant","C97_single_false","C97_empty_false"],"the statements about mean and variance are proved (C97_mean, C97_variance). The histogram is right if the lower limit is not above the smallest sample (C97_histogram_partial), in particular for a deviation of at least one and a factor that is not negative (C97_deviation). Otherwise it is written out of bounds (C97_out_of_bounds); C97_false is a sample with deviation 1/8 and the default factor 10, in every rounding mode. Equal samples give no bins and a read out of bounds (C97_constant), a single sample an undefined conversion (C97_single_false)."),
("C98","proved",["C98_histogram","C98_run_exists","C98_same","C98_total","C98_exact","C98_errors"],"for 1 to 2^31 - 2 bins, in every rounding mode. If the number of bins divides the range of the sums the edges are exact and every position is counted (C98_exact). No bins give one edge which is NaN and no exception, and 2^31 - 1 bins overflow the loop over the edges (C98_errors). With fewer than 2^31 positions no int counter overflows (C94_counters_partial). Not covered: readers whose blocks were partly read before."),
("C99","proved",["C99_session","C99_session_exists","C99_frames","C99_twice","C99_failed_false","C99_cut_false","C99_bytes","C99_bytes_false"],"from the records of the files to the results, for both layouts and all schedules. The calls in a session have valid arguments: after a call that raised, a rewind can leave sectors in the cache, and results are then wrong (C99_failed_false; C99_twice has the exact number of frames of each position after any reads and a rewind). C99_bytes: the same from the bytes of the files, also if they end inside of the pixels of a record (the missing pixels are zero). If a file ends within a header no call returns (C99_cut_false, C99_bytes_false)."),
("C100","partial",["Stempy.Props.LeastSquares.C100_armijo","Stempy.Props.LeastSquares.C100_armijo_result","Stempy.Props.LeastSquares.C100_armijo_partial","Stempy.Props.LeastSquares.C100_armijo_returns_iff","Stempy.Props.LeastSquares.C100_increasing","Stempy.Props.LeastSquares.C100_increasing_partial","Stempy.Props.LeastSquares.C100_setters","Stempy.Props.LeastSquares.C100_setters_accept","Stempy.Props.LeastSquares.C100_setters_set","Stempy.Props.LeastSquares.C100_iterations","Stempy.Props.LeastSquares.C100_iterations_false","Stempy.Props.LeastSquares.C100_armijo_min_false","Stempy.Props.LeastSquares.C100_armijo_forever_false","Stempy.Props.LeastSquares.C100_increasing_min_false","Stempy.Props.LeastSquares.C100_increasing_max_false","Stempy.Props.LeastSquares.C100_beta_false","Stempy.Props.LeastSquares.C100_beta_bounds_false"],"termination and bounds hold for positive bounds and factors in range (C100_armijo, C100_increasing), and C100_armijo_result has the exact result. That the error does not increase is false: the smallest length is returned whatever its error is (C100_armijo_min_false, C100_increasing_min_false), the largest too (C100_increasing_max_false); it holds for the other lengths (C100_armijo_partial, C100_increasing_partial). Armijo with the lower bound 0 may not return (C100_armijo_forever_false). The increasing search ignores its limit (C100_iterations, C100_iterations_false), and its setBeta tests the old factor (C100_beta_false, C100_beta_bounds_false). Exact arithmetic. stempy includes the library in its search path but does not call it."),
("C101","partial",["Stempy.Props.LeastSquares.C101_result","Stempy.Props.LeastSquares.C101_limit_returns","Stempy.Props.LeastSquares.C101_lm_returns","Stempy.Props.LeastSquares.C101_monotone","Stempy.Props.LeastSquares.C101_linear","Stempy.Props.LeastSquares.C101_damped","Stempy.Props.LeastSquares.C101_differences","Stempy.Props.LeastSquares.C101_returns","Stempy.Props.LeastSquares.C101_armijo","Stempy.Props.LeastSquares.C101_limit_false","Stempy.Props.LeastSquares.C101_lambda_false","Stempy.Props.LeastSquares.C101_differences_false","Stempy.Props.LeastSquares.C101_lm_returns_false","Stempy.Props.LeastSquares.C101_descent_false"],"C101_result characterises the result; optimize returns if the iterations and the search of lambda are limited (C101_limit_returns) or with the derivative of the errors (C101_lm_returns). The error does not increase for Levenberg-Marquardt without a limit for lambda (C101_monotone); with one the last step is made though it was rejected (C101_limit_false). Without these hypotheses the loops may not end (C101_lambda_false, C101_lm_returns_false, C101_descent_false). Linear errors are solved exactly (C101_linear). Exact arithmetic; the solver is any function that solves the systems that can be solved."),
("C102","partial",["Stempy.Props.Angle.C102_exact","Stempy.Props.Angle.C102_unique","Stempy.Props.Angle.C102_returns_iff","Stempy.Props.Angle.C102_nan","Stempy.Props.Angle.C102_infinite_false","Stempy.Props.Angle.C102_large_false","Stempy.Props.Angle.C102_equals","Stempy.Props.Angle.C102_equals_self","Stempy.Props.Angle.C102_equals_rounded","Stempy.Props.Angle.C102_equals_finite","Stempy.Props.Angle.C102_equals_inf_false","Stempy.Props.Angle.C102_iszero","Stempy.Props.Angle.C102_error","Stempy.Props.Angle.C102_pi","Stempy.Props.Angle.C102_small","Stempy.Props.Angle.C102_rounded_false"],"proved with exact arithmetic (C102_exact, C102_unique). In double precision the call returns if and only if the angle is at most 2^56, and then the result is in (-pi, pi] (C102_returns_iff); larger and infinite angles make it loop forever (C102_large_false, C102_infinite_false). The result is the angle plus z times 2 pi up to |z| times the rounding error of the angle and of 2 pi, with |z| at most a fifth of the angle plus one (C102_error, C102_pi with the real number pi); up to 64 + 2 pi nothing is rounded (C102_small), from there to 64 + 4 pi every result is wrong by 2^-47 (C102_rounded_false)."),
("C103","partial",["Stempy.Handles.C103_exact","Stempy.Handles.C103_true_partial","Stempy.Handles.C103_setAttribute","Stempy.Handles.C103_writes","Stempy.Handles.C103_chunks_false","Stempy.Handles.C103_select_false","Stempy.Handles.C103_type_false","Stempy.Handles.C103_children_false"],"C103_exact says for each function with which results of the library it reports success. C103_true_partial: twelve functions report success only if all their calls succeeded; setAttribute ignores one failure on purpose (C103_setAttribute); functions that write fail only if a call fails (C103_writes). False for createDataSet with chunks, where a failure of H5Pset_chunk is ignored (C103_chunks_false), for readData of a part, where one of H5Sselect_hyperslab is (C103_select_false), for attributeType and dataType, which take a failing H5Tequal for equality (C103_type_false), and for children, which ignores all failures after opening the group (C103_children_false)."),
("C104","partial",["Stempy.ReaderFactory.C104_partial","Stempy.ReaderFactory.C104_thread_number","Stempy.ReaderFactory.C104_threads","Stempy.ReaderFactory.C104_unknown","Stempy.ReaderFactory.C104_missing","Stempy.ReaderFactory.C104_no_files","Stempy.ReaderFactory.C104_version_range","Stempy.ReaderFactory.C104_backend_false","Stempy.ReaderFactory.C104_options_false","Stempy.ReaderFactory.C104_version_false","Stempy.ReaderFactory.C104_iterate_false"],"holds without a backend for the versions 1 to 5 (C104_partial) and with one for the versions 4 and 5 (C104_threads, C104_unknown, C104_thread_number). False otherwise: for other versions the backend and the options are ignored, also unknown ones (C104_backend_false); without a backend the options are ignored (C104_options_false); for versions no reader knows a reader is made that raises at the first block (C104_version_false); the threaded readers cannot be iterated (C104_iterate_false). C104_missing: what happens with a missing file."),
("C105","partial",["Stempy.Props.C105_images_partial","Stempy.Props.C105_images_gain_partial","Stempy.Props.C105_images_rowdark_partial","Stempy.Props.C105_same_images_partial","Stempy.Props.C105_headers_progress","Stempy.Props.C105_headers_termination","Stempy.Props.C105_progress","Stempy.Props.C105_termination","Stempy.Props.C105_race_free","Stempy.Props.C105_iff","Stempy.Props.C105_hang","Stempy.Props.C105_few_samples_false"],"false as C91: rank 0 never returns if the positions of one rank have fewer complete frames than its share of the samples (C105_hang), or with three or more ranks and fewer samples than ranks (C105_few_samples_false). Otherwise the images are those of the records written to the files, for all numbers of ranks and all schedules (C105_images_partial, _gain_partial, _rowdark_partial), equal to those of one process with the same thresholds (C105_same_images_partial); no deadlock, no undefined behaviour, termination, and rank 0 can return exactly if every share has enough complete frames (C105_headers_*, C105_progress, C105_termination, C105_race_free, C105_iff). Not covered: two ranks with one sample."),
("C106","proved",["Stempy.Props.C106_mean","Stempy.Props.C106_others","Stempy.Props.C106_equal_false"],"C106_mean and C106_others. The bound is not zero even if all centers of mass are equal: C106_equal_false has three positions with the same center, and a fourth without events gets a lower value in both versions for every order of summation."),
("C107","proved",["Stempy.Props.C107_mean","Stempy.Props.C107_closest","Stempy.Props.C107_denied","Stempy.Props.C107_integer_false","Stempy.Props.C107_integer_all","Stempy.Props.C107_saturated","Stempy.Props.C107_saturated_false","Stempy.Props.C107_versions_false"],"C107_mean with C107_closest. Beyond 2^24 the default type is wrong: C107_saturated has the results over the scan axes for any number of events, C107_saturated_false an array of ones with mean 1/2, C107_versions_false one for which NumPy 1 and NumPy 2 differ. An integer dtype never gives an array (C107_integer_false)."),
("C108","partial",["Stempy.Descan.C108_dense","Stempy.Descan.C108_lengths","Stempy.Descan.C108_lost","Stempy.Descan.C108_center","Stempy.Descan.C108_round","Stempy.Descan.C108_vacuum","Stempy.Descan.C108_centered_partial","Stempy.Descan.C108_lost_false","Stempy.Descan.C108_experiment","Stempy.Descan.C108_points_iff"],"C108_dense has the pixels, for every shape. The centers of mass agree for positions which lose no event, with square frames (C108_centered_partial, C108_vacuum with filter and cropping); with lost events they can be a pixel off (C108_lost_false), and for other frames the centers of mass are wrong (C50). For another scan the points of interpolation are right exactly if both scans are square (C108_points_iff): rows and columns are exchanged, without an error. Exact arithmetic; interpolation and filter are parameters."),
("C109","partial",["Stempy.Props.RadialAnnulus.C109_dense","Stempy.Props.RadialAnnulus.C109_dense_iff","Stempy.Props.RadialAnnulus.C109_dense_false","Stempy.Props.RadialAnnulus.C109_sparse","Stempy.Props.RadialAnnulus.C109_last_bin_false","Stempy.Props.RadialAnnulus.C109_same_pair_iff"],"Sparse data: right for square frames, all bins but the last, and the center as (row, column) for one function and (column, row) for the other (C109_sparse, which has the difference for the last bin; C109_last_bin_false); with the same pair for both, as the notebook says, right for all data exactly if row and column are the same (C109_same_pair_iff). Raw frames: the annulus contains its inner circle and the rings their outer circle, so the sums agree exactly if the pixels on both circles have the same sum (C109_dense, C109_dense_iff, C109_dense_false). Centers are integers; frames that are not square: C59."),
("C110","partial",["Stempy.Props.SameImages.C110_apertures","Stempy.Props.SameImages.C110_rows_iff","Stempy.Props.SameImages.C110_sum","Stempy.Props.SameImages.C110_dense","Stempy.Props.SameImages.C110_scale_iff"],"The three sums over the scan agree for every shape (C110_sum). Dark field and STEM image agree for square frames up to the factor 65535 (C110_apertures), which also is between the STEM images of sparse data and of dense frames (C110_dense), so that these are the same only where nothing is in the annulus (C110_scale_iff). The documented order of the centers (rows first) is right exactly if row and column are the same (C110_rows_iff). Frames that are not square: C51_not_square, C59_sliced_false. Centers are integers inside of the frame."),
("C111","partial",["Stempy.Props.SparseSession.C111_session_partial","Stempy.Props.SparseSession.C111_sum_partial","Stempy.Props.SparseSession.C111_total_partial","Stempy.Props.SparseSession.C111_size","Stempy.Props.SparseSession.C111_bin_twice","Stempy.Props.SparseSession.C111_bins_commute","Stempy.Props.SparseSession.C111_sliced_false"],"By induction over the sequence, for index expressions of slices, integers, index arrays and masks as in C44 (no ellipsis, no pixel twice, the axis of the arrays at its place) and if only square frames are binned; a sequence that slices square frames to others and bins these gives events outside of the frame (C111_sliced_false, C43_not_square). Files hold events below 2^32 and a scan with two dimensions, as in C47 and C48."),
("C112","partial",["Stempy.Props.MpiThrow.C112_iff","Stempy.Props.MpiThrow.C112_false","Stempy.Props.MpiThrow.C112_left","Stempy.Props.MpiThrow.C112_exists","Stempy.Props.MpiThrow.C112_certain","Stempy.Props.MpiThrow.C112_progress","Stempy.Props.MpiThrow.C112_termination","Stempy.Props.MpiThrow.C112_no_exception"],"Holds exactly on one rank (C112_iff): on more, the other ranks stay in MPI_Bcast forever after the exception (C112_false), in all executions if the computation fails for all samples (C112_certain), and there are such (C112_exists). The threads of rank 0 after the exception: C84."),
("C113","partial",["Stempy.Props.ThreadedCounting.C113_exactly_once","Stempy.Props.ThreadedCounting.C113_progress","Stempy.Props.ThreadedCounting.C113_termination","Stempy.Props.ThreadedCounting.C113_race_free_partial","Stempy.Props.ThreadedCounting.C113_exists","Stempy.Props.ThreadedCounting.C113_false","Stempy.Props.ThreadedCounting.C113_goes_on","Stempy.Props.ThreadedCounting.C113_certain","Stempy.Props.ThreadedCounting.C113_undefined"],"False for the code: the single-pass reader does not fill the vector complete, so counting never returns and stores nothing (C113_false), and every execution that cannot go on has read an element of the empty vector (C113_certain, C113_undefined). Proved in full for the program with the flag filled in and at most one frame per position (C113_exactly_once, C113_progress, C113_termination, C113_race_free_partial, C113_exists)."),
("C114","partial",["Stempy.Props.FileSession.C114_blocks","Stempy.Props.FileSession.C114_stream","Stempy.Props.FileSession.C114_stream_exists","Stempy.Props.FileSession.C114_hdf5","Stempy.Props.FileSession.C114_hdf5_exists","Stempy.Props.FileSession.C114_no_dimensions","Stempy.Props.FileSession.C114_spent_false"],"False only for calculate_average and maximum_diffraction_pattern with nothing left to read: undefined behaviour in place of an error (C114_spent_false). All else is proved (C114_blocks, C114_stream, C114_hdf5), for blocks whose header has a version other than 0 (see C65) and frames of one size; images and histograms where no position has two of the frames left."),
("C115","partial",["Stempy.Props.SectorPasses.C115_passes","Stempy.Props.SectorPasses.C115_exists","Stempy.Props.SectorPasses.C115_entries","Stempy.Props.SectorPasses.C115_delivered","Stempy.Props.SectorPasses.C115_bytes","Stempy.Props.SectorPasses.C115_filled","Stempy.Props.SectorPasses.C115_cut_header_false"],"False only for a file which ends inside of a header: its indeterminate values are used (C115_cut_header_false; by C115_passes exactly then). All else is proved for files of any bytes: C115_delivered for frames of four sectors, C115_bytes for any number of records of a frame and any sectors, for all files and threads with which no freed frame is used (C27_freed_iff)."),
("C116","partial",["Stempy.Props.ThreadedAgain.C116_complete","Stempy.Props.ThreadedAgain.C116_passes_exact","Stempy.Props.ThreadedAgain.C116_exact","Stempy.Props.ThreadedAgain.C116_exists","Stempy.Props.ThreadedAgain.C116_two_false","Stempy.Props.ThreadedAgain.C116_freed_iff","Stempy.Props.ThreadedAgain.C116_wait"],"True if every frame has no record or four (C116_complete). False otherwise, as the cache is not emptied: C116_exact and C116_passes_exact say what each call delivers (so C116_two_false). C116_freed_iff says for which files and threads a call can use a freed frame. The future of every call but the first throws future_error (C116_wait)."),
("C117","partial",["Stempy.Props.PyElements.C117_pixel","Stempy.Props.PyElements.C117_pass","Stempy.Props.PyElements.C117_integer","Stempy.Props.PyElements.C117_floating","Stempy.Props.PyElements.C117_kept_iff","Stempy.Props.PyElements.C117_types_iff","Stempy.Props.PyElements.C117_four_axes_false","Stempy.Props.PyElements.C117_two_axes_false","Stempy.Props.PyElements.C117_fortran_false"],"True up to the conversion for three axes in C order, also for cropped data unless these are uint16 (C117_pixel, C117_pass; uint16: C61). The value is kept exactly if it is an integer from 0 to 65535 (C117_kept_iff), so always exactly for unsigned types of at most 16 bits (C117_types_iff); otherwise it is changed without an error (C117_integer, C117_floating). Four axes are read as frames of a wrong size (C117_four_axes_false), fewer than three are undefined (C117_two_axes_false), Fortran order exchanges the pixels (C117_fortran_false). What a floating point number out of range becomes is left open."),
("C118","partial",["Stempy.SparseKeywords.C118_other","Stempy.SparseKeywords.C118_sum_iff","Stempy.SparseKeywords.C118_default_iff","Stempy.SparseKeywords.C118_initial_iff","Stempy.SparseKeywords.C118_extremum_iff","Stempy.SparseKeywords.C118_ignored","Stempy.SparseKeywords.C118_dtype_partial","Stempy.SparseKeywords.C118_dtype_false","Stempy.SparseKeywords.C118_mean_iff"],"True for axes other than the scan and frame axes, with permission to expand (C118_other), except that dtype makes max and min raise TypeError, as it does for the method of NumPy, while the documentation allows it (C118_dtype_false). Over the scan and frame axes keepdims and initial are not used (C118_ignored): C118_sum_iff says exactly when sum is that of NumPy, so never with keepdims, with a type exactly if initial is 0 in the type (C118_initial_iff), and by default exactly if no sum reaches 2^32, as the type is np.uint32 where that of NumPy is np.uint64 (C118_default_iff). Where max and min are those of NumPy without arguments (C118_dtype_partial), C118_extremum_iff says exactly when they are with them. mean uses keepdims for no axes (C118_mean_iff). max over the frame axes: C41."),
("C119","partial",["Stempy.MpiSizes.C119_right_partial","Stempy.MpiSizes.C119_ok_iff","Stempy.MpiSizes.C119_exception_iff","Stempy.MpiSizes.C119_total_false","Stempy.MpiSizes.C119_full_false","Stempy.MpiSizes.C119_one_message","Stempy.MpiSizes.C119_agrees"],"False: when every message is shorter than 2^31 bytes but all together are not, the sum of the sizes in int overflows before the check, so the exception is never thrown in the case it is for (C119_total_false); with blocks of 32 frames of 576 x 576 pixels 102 sample blocks are enough (C119_full_false). The exception is thrown exactly when a size wrapped to a negative number and the sum is negative (C119_exception_iff, C119_one_message). Proved: the exact condition for getting the blocks (C119_ok_iff), and that blocks that are obtained are the right ones (C119_right_partial). With messages shorter than 2^31 bytes the result is that of the model of C35 (C119_agrees). MPI_Gatherv with a negative size is taken as undefined."),
("C120","partial",["Stempy.MpiSizes.C120_small_partial","Stempy.MpiSizes.C120_total_false","Stempy.MpiSizes.C120_four_false","Stempy.MpiSizes.C120_four_partial","Stempy.MpiSizes.indexMessage_length","Stempy.MpiSizes.C120_table","Stempy.MpiSizes.C120_iff"],"False: the sum of the sizes is an int and is not checked, so it overflows on every rank when the messages, each shorter than 2^31 bytes, have 2^31 bytes or more together (C120_total_false). With the four sectors on four ranks and a frame at every position that happens exactly from 7456541 positions on, a square of 2731 (C120_four_false, C120_four_partial; up to the size where a single message is too long). Proved: below 2^31 bytes the index is that of C35 (C120_small_partial), with the size of a message (indexMessage_length). For messages of all sizes C120_iff says exactly when a rank gets the index of C35, and C120_table what happens otherwise: undefined behaviour, or an exception when the sum is negative or the message of another rank is cut. MPI_Allgatherv with a negative size is taken as undefined."),
]
