{
 "claims": [
  {
   "property": "C01",
   "status": "proved",
   "theorems": [
    "Litiv.AutoBuffer.history_refines_lists",
    "Litiv.AutoBuffer.history_no_leak"
   ],
   "note": "Refinement to lists with an explicit heap; copies and moves between buffers of different static capacity and pushed values outside the buffer (the other cases are C54)."
  },
  {
   "property": "C02",
   "status": "partial",
   "theorems": [
    "Litiv.AutoBuffer.atUnsigned_spec",
    "Litiv.AutoBuffer.atSigned_spec_partial",
    "Litiv.AutoBuffer.atSigned_negative_undefined"
   ],
   "note": "Full for unsigned index types; false for negative indices of signed types."
  },
  {
   "property": "C03",
   "status": "proved",
   "theorems": [
    "Litiv.WorkerPool.started_prefix_of_accepted",
    "Litiv.WorkerPool.finished_le_accepted",
    "Litiv.WorkerPool.drained_when_joined",
    "Litiv.WorkerPool.destructor_terminates",
    "Litiv.WorkerPool.no_lost_wakeup",
    "Litiv.WorkerPool.overlapping_destruction_loses_task"
   ],
   "note": "Draining assumes the C++ lifetime rule (no outside call overlaps the destructor); the rule is shown to be needed."
  },
  {
   "property": "C04",
   "status": "proved",
   "theorems": [
    "Litiv.Semaphore.count_conserved",
    "Litiv.Semaphore.step_accounting",
    "Litiv.Semaphore.waiter_can_proceed",
    "Litiv.Semaphore.call_succeeds_when_positive"
   ],
   "note": "Count modelled without size_t wrap-around."
  },
  {
   "property": "C05",
   "status": "proved",
   "theorems": [
    "Litiv.Seq.split_join",
    "Litiv.Seq.split_of_join"
   ],
   "note": ""
  },
  {
   "property": "C06",
   "status": "proved",
   "theorems": [
    "Litiv.Seq.clampString_spec"
   ],
   "note": ""
  },
  {
   "property": "C07",
   "status": "partial",
   "theorems": [
    "Litiv.Seq.putf_exact_partial",
    "Litiv.Seq.putf_loses_last_char",
    "Litiv.Seq.putf_not_exact"
   ],
   "note": "False for texts of exactly 1024 characters; proved for every other length."
  },
  {
   "property": "C08",
   "status": "proved",
   "theorems": [
    "Litiv.Seq.filterIn_spec",
    "Litiv.Seq.filterOut_spec",
    "Litiv.Seq.filter_partition"
   ],
   "note": ""
  },
  {
   "property": "C09",
   "status": "proved",
   "theorems": [
    "Litiv.Seq.indicesOf_spec"
   ],
   "note": ""
  },
  {
   "property": "C10",
   "status": "proved",
   "theorems": [
    "Litiv.Seq.sortIndices_spec",
    "Litiv.Seq.uniqueIndices_spec",
    "Litiv.Seq.uniqueIndices_not_first_occurrence"
   ],
   "note": "std::sort is a parameter with its standard guarantee; the documented 'first occurrence' is refuted."
  },
  {
   "property": "C100",
   "status": "partial",
   "theorems": [
    "Litiv.LSS.keypoints_dense",
    "Litiv.LSS.keypointMap_partial",
    "Litiv.LSS.keypointMap_refuted",
    "Litiv.LSS.validateROI_spec"
   ],
   "note": "Keypoints at pixels. Missing: in maps of keypoints the other pixels keep the previous content (refuted)."
  },
  {
   "property": "C101",
   "status": "proved",
   "theorems": [
    "Litiv.GMM.learn_defined",
    "Litiv.GMM.learn_weights",
    "Litiv.GMM.learn_params",
    "Litiv.GMM.learn_empty",
    "Litiv.GMM.learn_perm",
    "Litiv.GMM.construct_zero"
   ],
   "note": "Exact real arithmetic, with the tolerance of LU for doubles; dimension at most 10^20."
  },
  {
   "property": "C102",
   "status": "partial",
   "theorems": [
    "Litiv.GMM.density_gauss",
    "Litiv.GMM.mixture_gauss",
    "Litiv.GMM.mixture_integral",
    "Litiv.GMM.best_max",
    "Litiv.GMM.debug_assertion_partial",
    "Litiv.GMM.debug_assertion_refuted"
   ],
   "note": "Exact real arithmetic. Missing: in debug builds and dimension 8 or more, an assertion fails for degenerate components (refuted); up to dimension 7 none does."
  },
  {
   "property": "C103",
   "status": "partial",
   "theorems": [
    "Litiv.GMMSeg.init_spec_partial",
    "Litiv.GMMSeg.init_small_refuted",
    "Litiv.GMMSeg.assign_best",
    "Litiv.GMMSeg.assign_outside",
    "Litiv.GMMSeg.relearn_spec",
    "Litiv.GMMSeg.round_weights"
   ],
   "note": "cv::kmeans by contract. Missing: segments with more pixels than channels but fewer than components, for which the initialisation throws (refuted)."
  },
  {
   "property": "C104",
   "status": "partial",
   "theorems": [
    "Litiv.Warp.node_best",
    "Litiv.Warp.node_interpolates",
    "Litiv.Warp.node_exact",
    "Litiv.Warp.node_similarity_defined",
    "Litiv.Warp.node_rigid_refuted"
   ],
   "note": "Exact real arithmetic. Missing: definedness; the displacement is NaN when all destination points are equal, and in the rigid mode also when source points are equal (refuted)."
  },
  {
   "property": "C105",
   "status": "partial",
   "theorems": [
    "Litiv.Warp.setup_defined",
    "Litiv.Warp.warp_deterministic",
    "Litiv.Warp.warp_range",
    "Litiv.Warp.warp_node",
    "Litiv.Warp.warp_control_point",
    "Litiv.Warp.warp_exact_partial",
    "Litiv.Warp.warp_exact_refuted",
    "Litiv.Warp.warp_copy",
    "Litiv.Warp.warp_single_refuted"
   ],
   "note": "Exact real arithmetic. Missing: cells cut by the right or bottom border, where the transform is not followed (refuted); a single control point is ignored (refuted)."
  },
  {
   "property": "C106",
   "status": "partial",
   "theorems": [
    "Litiv.SC.list_counts",
    "Litiv.SC.counted_iff",
    "Litiv.SC.counted_unique",
    "Litiv.SC.list_total",
    "Litiv.SC.map_any",
    "Litiv.SC.map_schedule",
    "Litiv.SC.nearest_pixel",
    "Litiv.SC.map_counts_partial",
    "Litiv.SC.map_outside_refuted",
    "Litiv.SC.map_duplicates_refuted",
    "Litiv.SC.dense_counts",
    "Litiv.SC.direct_bin",
    "Litiv.SC.direct_counted",
    "Litiv.SC.direct_counts",
    "Litiv.SC.dense_direct_counts",
    "Litiv.SC.direct_one_ring_refuted",
    "Litiv.SC.direct_outside_refuted"
   ],
   "note": "Exact real arithmetic; contours and the structuring element by contract. Missing: key points given twice (counted twice in maps, refuted), key points outside of the image (undefined, refuted), one ring or a large inner radius with the lookup mask (refuted)."
  },
  {
   "property": "C107",
   "status": "partial",
   "theorems": [
    "Litiv.SC.translation_invariant",
    "Litiv.SC.rotation_invariant_partial",
    "Litiv.SC.rotation_refuted",
    "Litiv.SC.scale_invariant_partial",
    "Litiv.SC.scale_refuted"
   ],
   "note": "Exact real arithmetic. Missing: rotation when a contour point is the centre of mass (refuted); scaling, because of the epsilon added to the mean distance (refuted; proved for the scaling that accounts for it)."
  },
  {
   "property": "C108",
   "status": "partial",
   "theorems": [
    "Litiv.SC.limits_spec",
    "Litiv.SC.normalized_unit",
    "Litiv.SC.normalized_map",
    "Litiv.SC.emd_metric",
    "Litiv.SC.emd_positive",
    "Litiv.SC.emd_positive_refuted",
    "Litiv.SC.mask_point_mean"
   ],
   "note": "Exact real arithmetic. Missing: positive costs with the lookup mask, where bins without cells share the corner (refuted)."
  },
  {
   "property": "C109",
   "status": "partial",
   "theorems": [
    "Litiv.SC.sparse_keys",
    "Litiv.SC.detect_keys",
    "Litiv.SC.dense_keys_partial",
    "Litiv.SC.dense_refuted",
    "Litiv.SC.output_partial",
    "Litiv.SC.output_refuted"
   ],
   "note": "Missing: a dense map after a detection without key points on an image of another size (refuted); a non-empty output of another size (refuted)."
  },
  {
   "property": "C11",
   "status": "proved",
   "theorems": [
    "Litiv.Seq.makeRange_spec",
    "Litiv.Seq.makeRange_empty",
    "Litiv.Seq.makeRange_rejects"
   ],
   "note": ""
  },
  {
   "property": "C110",
   "status": "proved",
   "theorems": [
    "Litiv.DASC.filter_steps",
    "Litiv.DASC.sigma_budget",
    "Litiv.DASC.filter_averages",
    "Litiv.DASC.filter_range",
    "Litiv.DASC.filter_history",
    "Litiv.DASC.localDiff_spec"
   ],
   "note": "Exact real arithmetic."
  },
  {
   "property": "C111",
   "status": "partial",
   "theorems": [
    "Litiv.DASC.raw_corr",
    "Litiv.DASC.raw_range",
    "Litiv.DASC.variance_nonneg",
    "Litiv.DASC.dense_unit",
    "Litiv.DASC.dense_ratio",
    "Litiv.DASC.dense_history",
    "Litiv.DASC.raw_first_row_refuted"
   ],
   "note": "Exact real arithmetic. Missing: samples in the first row or column of the image, whose value is always zero (refuted)."
  },
  {
   "property": "C112",
   "status": "proved",
   "theorems": [
    "Litiv.DASC.guided_ridge",
    "Litiv.DASC.guided_lines",
    "Litiv.DASC.guided_constant",
    "Litiv.DASC.guided_linear"
   ],
   "note": "Exact real arithmetic; cv::blur and cv::resize by contract as weighted means."
  },
  {
   "property": "C113",
   "status": "partial",
   "theorems": [
    "Litiv.DASC.pattern_border",
    "Litiv.DASC.detect_spec",
    "Litiv.DASC.kept_iff",
    "Litiv.DASC.kept_masked",
    "Litiv.DASC.kept_complete_partial",
    "Litiv.DASC.kept_complete_refuted"
   ],
   "note": "Missing: key points at row or column 15, which lack values of samples in the first row or column (refuted)."
  },
  {
   "property": "C114",
   "status": "proved",
   "theorems": [
    "Litiv.Slic.init_fails_iff",
    "Litiv.Slic.init_grid",
    "Litiv.Slic.init_count",
    "Litiv.Slic.init_centres"
   ],
   "note": "Exact real arithmetic for the square root of the pixels per superpixel."
  },
  {
   "property": "C115",
   "status": "partial",
   "theorems": [
    "Litiv.Slic.assign_cover",
    "Litiv.Slic.segment_step",
    "Litiv.Slic.assign_cover_refuted",
    "Litiv.Slic.assign_cell_refuted"
   ],
   "note": "Exact real arithmetic. Proved when the pixels of a cell fit in one block; missing: larger cells, for which pixels stay unlabelled or get far clusters (refuted)."
  },
  {
   "property": "C116",
   "status": "partial",
   "theorems": [
    "Litiv.Slic.segment_step",
    "Litiv.Slic.segment_energy",
    "Litiv.Slic.segment_history",
    "Litiv.Slic.segment_wc_refuted"
   ],
   "note": "Exact real arithmetic; cells that fit in one block. Missing: compactness above 20000 (refuted for one million) and rounding, for which the order of atomic additions matters."
  },
  {
   "property": "C117",
   "status": "partial",
   "theorems": [
    "Litiv.Slic.lab_cie_partial",
    "Litiv.Slic.lab_range",
    "Litiv.Slic.lab_lightness_refuted",
    "Litiv.Slic.lab_b_refuted"
   ],
   "note": "Missing: lightness of dark pixels and the third coordinate (both refuted)."
  },
  {
   "property": "C118",
   "status": "partial",
   "theorems": [
    "Litiv.SlicConn.enforce_labels",
    "Litiv.SlicConn.enforce_connected",
    "Litiv.SlicConn.enforce_size",
    "Litiv.SlicConn.enforce_count",
    "Litiv.SlicConn.enforce_small_refuted",
    "Litiv.SlicConn.enforce_number_refuted"
   ],
   "note": "Proved for at least four pixels per superpixel. Missing: fewer pixels, for which single pixels keep no label, and the returned number if no region is large enough (both refuted)."
  },
  {
   "property": "C119",
   "status": "proved",
   "theorems": [
    "Litiv.SlicShow.mean_spec",
    "Litiv.SlicShow.mean_flat"
   ],
   "note": "Exact sums and means; labels from -1, image not empty."
  },
  {
   "property": "C12",
   "status": "partial",
   "theorems": [
    "Litiv.Seq.accumulateMembers_spec",
    "Litiv.Seq.cumulativeSum_exact_partial",
    "Litiv.Seq.cumulativeSum_mod",
    "Litiv.Seq.cumulativeSum_wraps"
   ],
   "note": "cumulativeSum wraps in the element type; exact only when the total fits it."
  },
  {
   "property": "C120",
   "status": "partial",
   "theorems": [
    "Litiv.SlicShow.bound_drawn",
    "Litiv.SlicShow.bound_inside",
    "Litiv.SlicShow.bound_shows",
    "Litiv.SlicShow.bound_row_refuted"
   ],
   "note": "Dilation by contract. Missing: images of one row or column, whose boundaries are not drawn (refuted)."
  },
  {
   "property": "C121",
   "status": "partial",
   "theorems": [
    "Litiv.Pawcs.start_complete",
    "Litiv.Pawcs.session_complete",
    "Litiv.Pawcs.override_refuted"
   ],
   "note": "Missing: an update rate of 2^63 from a learning rate override, for which a remainder by zero is computed (refuted). Counters do not overflow."
  },
  {
   "property": "C122",
   "status": "proved",
   "theorems": [
    "Litiv.Pawcs.start_words",
    "Litiv.Pawcs.session_words"
   ],
   "note": "Descriptors and thresholds are arbitrary functions."
  },
  {
   "property": "C123",
   "status": "proved",
   "theorems": [
    "Litiv.Pawcs.frame_steps",
    "Litiv.Pawcs.first_word_background"
   ],
   "note": "For the raw mask, before post-processing; any monotone rounding of floats that is exact on small integers."
  },
  {
   "property": "C124",
   "status": "proved",
   "theorems": [
    "Litiv.Pawcs.frame_steps",
    "Litiv.Pawcs.global_update"
   ],
   "note": "In `frame_steps`: the `Own` part of each step. `global_update`: what happens to the global words."
  },
  {
   "property": "C125",
   "status": "partial",
   "theorems": [
    "Litiv.Pawcs.frame_steps",
    "Litiv.Pawcs.three_channel_kept",
    "Litiv.Pawcs.one_channel_lost",
    "Litiv.Pawcs.one_channel_refuted"
   ],
   "note": "Proved for three channels. Missing: one channel, for which the code changes a copy of the word (refuted)."
  },
  {
   "property": "C126",
   "status": "proved",
   "theorems": [
    "Litiv.Pawcs.frame_ranks"
   ],
   "note": ""
  },
  {
   "property": "C127",
   "status": "partial",
   "theorems": [
    "Litiv.Pawcs.start_complete",
    "Litiv.Pawcs.restart_refuted"
   ],
   "note": "Proved for a new object. Missing: an object with a model (refuted: slots keep pointers to words that are not set up)."
  },
  {
   "property": "C128",
   "status": "partial",
   "theorems": [
    "Litiv.PawcsFeed.ranges_partial",
    "Litiv.PawcsFeed.directions",
    "Litiv.PawcsFeed.raw_follow",
    "Litiv.PawcsFeed.rates_callable",
    "Litiv.PawcsFeed.short_window_refuted",
    "Litiv.PawcsFeed.dist_shift_refuted"
   ],
   "note": "Proved: ranges, directions and rates, for every history. Missing: the descriptor threshold is undefined once the distance factor reaches 63.5 (refuted by a history of 5902 frames; impossible in 2881 frames), and averaging windows of less than eight frames divide by zero."
  },
  {
   "property": "C129",
   "status": "proved",
   "theorems": [
    "Litiv.PawcsFeed.mode_offset",
    "Litiv.PawcsFeed.mode_switches",
    "Litiv.PawcsFeed.mode_switch_refreshes",
    "Litiv.PawcsFeed.mode_decided",
    "Litiv.PawcsFeed.mode_once",
    "Litiv.PawcsFeed.mode_refreshes"
   ],
   "note": ""
  },
  {
   "property": "C13",
   "status": "partial",
   "theorems": [
    "Litiv.Seq.digitCount_spec_partial",
    "Litiv.Seq.digitCount_wrong_wide",
    "Litiv.Seq.digitCount_undefined"
   ],
   "note": "Proved for the int range; false for wider values."
  },
  {
   "property": "C130",
   "status": "partial",
   "theorems": [
    "Litiv.PawcsFeed.resets_apart",
    "Litiv.PawcsFeed.reset_happens",
    "Litiv.PawcsFeed.resets_end",
    "Litiv.PawcsFeed.reenable_refuted"
   ],
   "note": "Proved for resets that were never switched off and a reset within the last 1000 frames. Missing: after 1001 frames without a reset no reset ever happens again, even when automatic resets are switched on again (refuted)."
  },
  {
   "property": "C131",
   "status": "partial",
   "theorems": [
    "Litiv.BgImage.background_between_partial",
    "Litiv.BgImage.many_samples_refuted",
    "Litiv.BgImage.vibe_background"
   ],
   "note": "Proved with float arithmetic for less than 32768 samples of 8 bits and less than 128 samples of 16 bits. Missing: more samples (583 samples of 16 bits give a value outside of their range: refuted)."
  },
  {
   "property": "C132",
   "status": "partial",
   "theorems": [
    "Litiv.PawcsFeed.pawcs_background_partial",
    "Litiv.PawcsFeed.pawcs_background_refuted"
   ],
   "note": "Proved with float arithmetic for refreshes that create words with at least one occurrence. Missing: resets in the moving-camera mode, which create words with none (refuted: zero divided by zero with one word per pixel), and mode switches that skip foreground."
  },
  {
   "property": "C133",
   "status": "proved",
   "theorems": [
    "Litiv.Vptz.pixel_direction",
    "Litiv.Vptz.pixel_direction_refuses",
    "Litiv.Vptz.pixel_round_trip"
   ],
   "note": "Over the real numbers (rounding not modelled)."
  },
  {
   "property": "C134",
   "status": "partial",
   "theorems": [
    "Litiv.Vptz.pixel_of_direction_partial",
    "Litiv.Vptz.appears_once",
    "Litiv.Vptz.pixel_behind",
    "Litiv.Vptz.pixel_of_camera",
    "Litiv.Vptz.pixel_right_angle_refuted",
    "Litiv.Vptz.pixel_of_direction_refuted"
   ],
   "note": "Missing: directions left of or above the image (truncation toward zero, refuted) and at exactly 90 degrees (undefined conversion, refuted)."
  },
  {
   "property": "C135",
   "status": "partial",
   "theorems": [
    "Litiv.Vptz.box_same_camera_partial",
    "Litiv.Vptz.box_behind",
    "Litiv.Vptz.gt_point",
    "Litiv.Vptz.box_full_width_refuted",
    "Litiv.Vptz.update_view_refuted"
   ],
   "note": "Missing: boxes as large as the image (refuted: exception), the check of view angles (refuted: of the old ones); different cameras."
  },
  {
   "property": "C136",
   "status": "partial",
   "theorems": [
    "Litiv.VptzCam.set_direction_partial",
    "Litiv.VptzCam.set_direction_refuted",
    "Litiv.VptzCam.goto_centres",
    "Litiv.VptzCam.goto_refuses",
    "Litiv.VptzCam.settings_valid_partial",
    "Litiv.VptzCam.motion_delay",
    "Litiv.VptzCam.motion_repeated_refuted"
   ],
   "note": "Missing: angles of 540, 900, ... degrees (refuted: stored as -180), and waits without a motion (refuted: the last one is counted again)."
  },
  {
   "property": "C137",
   "status": "partial",
   "theorems": [
    "Litiv.VptzCam.play_begins",
    "Litiv.VptzCam.wait_advances",
    "Litiv.VptzCam.play_ends",
    "Litiv.VptzCam.play_again_refuted",
    "Litiv.VptzCam.still_image_refuted"
   ],
   "note": "Missing: second playbacks (refuted: negative time) and single images (refuted: undefined conversion)."
  },
  {
   "property": "C138",
   "status": "partial",
   "theorems": [
    "Litiv.VptzEval.setup_partial",
    "Litiv.VptzEval.setup_refuted",
    "Litiv.VptzEval.gt_index",
    "Litiv.VptzEval.frames_once",
    "Litiv.VptzEval.next_frame",
    "Litiv.VptzEval.file_complete_partial",
    "Litiv.VptzEval.file_valid_partial",
    "Litiv.VptzEval.file_complete_refuted"
   ],
   "note": "Missing: tests with a negative first frame (refuted: may be empty), and the file after a test begun twice, not ended, or after an OpenCV exception (refuted)."
  },
  {
   "property": "C139",
   "status": "partial",
   "theorems": [
    "Litiv.VptzEval.overlap_jaccard",
    "Litiv.VptzEval.overlap_empty_refuted",
    "Litiv.VptzEval.averages_partial",
    "Litiv.VptzEval.half_near",
    "Litiv.VptzEval.out_of_view_refuted",
    "Litiv.VptzEval.averages_refuted"
   ],
   "note": "Missing: the average overlap and the ratio of processed frames (refuted: 2 for a perfect tracker), the test of out-of-view targets (refuted), empty boxes (refuted: zero divided by zero)."
  },
  {
   "property": "C14",
   "status": "partial",
   "theorems": [
    "Litiv.Bits.ispow2_spec_partial",
    "Litiv.Bits.ispow2_accepts_zero",
    "Litiv.Bits.getNextPow2_spec",
    "Litiv.Bits.getNextPow2_outside"
   ],
   "note": "get_next_pow2 in full; ispow2 in full except 0, for which it wrongly answers true."
  },
  {
   "property": "C140",
   "status": "proved",
   "theorems": [
    "Litiv.SegmAssoc.associations_exact",
    "Litiv.SegmAssoc.reset_labels",
    "Litiv.SegmAssoc.move_labels",
    "Litiv.SegmAssoc.run_legal",
    "Litiv.SegmAssoc.associations_bounded"
   ],
   "note": "As compiled by default: disparity step 1, fusion moves, no epipolar cliques."
  },
  {
   "property": "C141",
   "status": "partial",
   "theorems": [
    "Litiv.SegmAssoc.energy_exact",
    "Litiv.SegmAssoc.move_terms_bound",
    "Litiv.SegmAssoc.energy_never_rises_partial",
    "Litiv.SegmAssoc.energy_nonneg"
   ],
   "note": "Missing: the QPBO minimizer (contract of weak persistency), overflow of 32-bit costs, 200 or more disparities (see C142)."
  },
  {
   "property": "C142",
   "status": "partial",
   "theorems": [
    "Litiv.SegmAssoc.match_price",
    "Litiv.SegmAssoc.move_price",
    "Litiv.SegmAssoc.price_tables_partial",
    "Litiv.SegmAssoc.price_tables_refuted"
   ],
   "note": "Missing: 200 to 253 disparities (refuted: tables read out of bounds; only a debug assertion)."
  },
  {
   "property": "C143",
   "status": "proved",
   "theorems": [
    "Litiv.SegmDual.setup_succeeds",
    "Litiv.SegmDual.heights_track_energy",
    "Litiv.SegmDual.solve_labels",
    "Litiv.SegmDual.solve_locality"
   ],
   "note": "Costs are unbounded integers; the minimizer's labels and values are arbitrary."
  },
  {
   "property": "C144",
   "status": "partial",
   "theorems": [
    "Litiv.SegmDual.residual_table",
    "Litiv.SegmDual.residual_tight",
    "Litiv.SegmDual.objective_is_energy_change",
    "Litiv.SegmDual.moves_never_raise",
    "Litiv.SegmDual.first_frames_never_raise_partial",
    "Litiv.SegmDual.temporal_move_refuted"
   ],
   "note": "Missing: frames with temporal cliques, for which the claim is false (C145, temporal_move_refuted); the minimizer enters by contract."
  },
  {
   "property": "C145",
   "status": "partial",
   "theorems": [
    "Litiv.SegmDual.pairwise_table_partial",
    "Litiv.SegmDual.temporal_table_refuted"
   ],
   "note": "Missing: graphs with valid temporal cliques, for which the claim is false in every order of the threads."
  },
  {
   "property": "C146",
   "status": "proved",
   "theorems": [
    "Litiv.SegmProj.front_surface_wins",
    "Litiv.SegmProj.outside_dont_care",
    "Litiv.SegmProj.points_back",
    "Litiv.SegmProj.visible_or_hidden",
    "Litiv.SegmProj.occlusion_exact"
   ],
   "note": "Before the median filters; rows do not interact."
  },
  {
   "property": "C147",
   "status": "partial",
   "theorems": [
    "Litiv.SegmProj.projected_mask",
    "Litiv.SegmProj.holes_filled",
    "Litiv.SegmProj.second_output",
    "Litiv.SegmProj.first_output_partial",
    "Litiv.SegmProj.first_output_mask_refuted"
   ],
   "note": "Proved for the camera that is not the primary one, for any smoothing. Missing: the primary camera, for which the claim is false (it is smoothed last and not masked again)."
  },
  {
   "property": "C148",
   "status": "proved",
   "theorems": [
    "Litiv.SegmRun.window",
    "Litiv.SegmRun.reset_forgets",
    "Litiv.SegmRun.precalc_same",
    "Litiv.SegmRun.features_relative",
    "Litiv.SegmRun.latest_output",
    "Litiv.SegmRun.past_disparities",
    "Litiv.SegmRun.precalc_ahead_refuted",
    "Litiv.SegmRun.reset_keeps_packet_refuted"
   ],
   "note": "For images of one type and at least one past layer (the default). Features computed for several frames ahead of time, and packets pending at a reset, are outside of the claim: both change the outputs (the two refutations)."
  },
  {
   "property": "C149",
   "status": "partial",
   "theorems": [
    "Litiv.SegmRun.loops_end",
    "Litiv.SegmRun.labels_in_turn",
    "Litiv.SegmRun.pass_notices_partial",
    "Litiv.SegmRun.pass_notices_refuted"
   ],
   "note": "Missing: that a pass notices all its changes, which is false: only the second move of each pair is counted."
  },
  {
   "property": "C15",
   "status": "proved",
   "theorems": [
    "Litiv.Bits.popcount_spec",
    "Litiv.Bits.popcount8_spec",
    "Litiv.Bits.hdist_spec"
   ],
   "note": ""
  },
  {
   "property": "C150",
   "status": "partial",
   "theorems": [
    "Litiv.SegmUnary.initial_is_best",
    "Litiv.SegmUnary.in_view_exact",
    "Litiv.SegmUnary.cost_of_label",
    "Litiv.SegmUnary.initial_is_disparity",
    "Litiv.SegmUnary.initial_is_disparity'",
    "Litiv.SegmUnary.out_of_view_cost",
    "Litiv.SegmUnary.flat_goes_out_of_view",
    "Litiv.SegmUnary.first_out_of_view",
    "Litiv.SegmUnary.initial_in_view_partial",
    "Litiv.SegmUnary.initial_in_view_refuted"
   ],
   "note": "Proved for pixels whose disparities are all in view. Missing: the others, for which the claim is false (a disparity out of view costs less than the average of the smaller ones)."
  },
  {
   "property": "C151",
   "status": "partial",
   "theorems": [
    "Litiv.SegmUnary.pair_cost",
    "Litiv.SegmUnary.reserved_pairs",
    "Litiv.SegmUnary.triangle_partial",
    "Litiv.SegmUnary.triangle_refuted"
   ],
   "note": "Missing: the triangle inequality, which is false (squared differences); it holds up to a factor of two."
  },
  {
   "property": "C152",
   "status": "partial",
   "theorems": [
    "Litiv.GLEval.gpu_counts",
    "Litiv.GLEval.gpu_is_cpu_partial",
    "Litiv.GLEval.result_depends_on_images",
    "Litiv.GLEval.gpu_is_cpu_refuted",
    "Litiv.GLEval.missing_gt_refuted"
   ],
   "note": "Equality of all counters proved for frames which are a multiple of the 12x8 work groups; for other sizes all counters but 'don't care' are proved equal, and that one is false (it also counts the invocations outside of the frame)."
  },
  {
   "property": "C153",
   "status": "partial",
   "theorems": [
    "Litiv.GLEval.rows_kept",
    "Litiv.GLEval.too_many_frames",
    "Litiv.GLEval.page_fits",
    "Litiv.GLEval.rows_kept_refuted"
   ],
   "note": "Proved for limits of at least two frames (48 bytes) or of the whole session. Missing: limits between one and two frames, for which the buffer may get size zero."
  },
  {
   "property": "C154",
   "status": "partial",
   "theorems": [
    "Litiv.GLScan.block_scan_partial",
    "Litiv.GLScan.block_scan_sizes",
    "Litiv.GLScan.block_scan_refuted"
   ],
   "note": "Proved for the block sizes which are powers of two; for every other accepted size the shader is proved to access its shared array out of bounds."
  },
  {
   "property": "C155",
   "status": "partial",
   "theorems": [
    "Litiv.GLScan.short_row_partial",
    "Litiv.GLScan.long_row_value",
    "Litiv.GLScan.long_row_refuted",
    "Litiv.GLScan.documented_dispatch_refuted"
   ],
   "note": "Proved for rows which fit in a block. For longer rows the property is false: the merge drops the last element of every block (the exact value is proved), and the documented number of work groups does not cover the row."
  },
  {
   "property": "C156",
   "status": "proved",
   "theorems": [
    "Litiv.GLScan.transposed"
   ],
   "note": ""
  },
  {
   "property": "C157",
   "status": "proved",
   "theorems": [
    "Litiv.GLPreload.preload_complete",
    "Litiv.GLPreload.preload_terminates",
    "Litiv.GLPreload.preload_in_bounds",
    "Litiv.GLPreload.early_read_refuted"
   ],
   "note": "early_read_refuted shows why the callers need a barrier before reading the window (they have one)."
  },
  {
   "property": "C158",
   "status": "partial",
   "theorems": [
    "Litiv.GLPreload.blur_is_median_partial",
    "Litiv.GLPreload.shared_is_direct",
    "Litiv.GLPreload.postproc_partial",
    "Litiv.GLPreload.even_kernel_refuted",
    "Litiv.GLPreload.postproc_refuted"
   ],
   "note": "Proved for odd kernels, and for the post-processing stage if all work groups preload before any stores. False for even kernels, and for other orders of the work groups (the stage filters in place)."
  },
  {
   "property": "C159",
   "status": "partial",
   "theorems": [
    "Litiv.GLPreload.neighbours",
    "Litiv.GLPreload.neighbour_inside_partial",
    "Litiv.GLPreload.neighbour_inside_refuted"
   ],
   "note": "Proved for positions one pixel further inside; false at the border, since the result of clamp is not used."
  },
  {
   "property": "C16",
   "status": "proved",
   "theorems": [
    "Litiv.Bits.hdist_metric",
    "Litiv.Bits.gdist_spec"
   ],
   "note": ""
  },
  {
   "property": "C160",
   "status": "proved",
   "theorems": [
    "Litiv.GLLobster.layout_agrees",
    "Litiv.GLLobster.layout_disjoint",
    "Litiv.GLLobster.background_mean",
    "Litiv.GLLobster.background_descs_mean"
   ],
   "note": "Means: single precision, up to 65536 samples for the colours and 256 for the descriptors."
  },
  {
   "property": "C161",
   "status": "partial",
   "theorems": [
    "Litiv.GLLobster.init_samples",
    "Litiv.GLLobster.init_desc_partial",
    "Litiv.GLLobster.init_desc_refuted"
   ],
   "note": "Colours and positions proved in general, descriptors for gray images and unswapped channels; false for the red and blue channels of BGRA images, where the colour of one channel is compared with the neighbours of the other."
  },
  {
   "property": "C162",
   "status": "partial",
   "theorems": [
    "Litiv.GLLobster.refresh_mask_partial",
    "Litiv.GLLobster.refresh_mask_refuted",
    "Litiv.GLLobster.refresh_bounds_refuted"
   ],
   "note": "Proved for square frames (and forced refreshes); false otherwise, as the row offset in the mask uses the frame height."
  },
  {
   "property": "C163",
   "status": "proved",
   "theorems": [
    "Litiv.GLLobster.classify"
   ],
   "note": "For the invocation running alone; colour words are bytes (stored_bytes) and the region of interest is at least one pixel away from the border (the code clears two)."
  },
  {
   "property": "C164",
   "status": "partial",
   "theorems": [
    "Litiv.GLLobster.invocation_ends",
    "Litiv.GLLobster.updates_from_background",
    "Litiv.GLLobster.accesses_in_bounds",
    "Litiv.GLLobster.stored_bytes",
    "Litiv.GLLobster.pairs_refuted"
   ],
   "note": "Proved word by word; false for whole samples: colour and descriptor are stored at two different random places."
  },
  {
   "property": "C165",
   "status": "partial",
   "theorems": [
    "Litiv.GLLobster.uniform_background_partial",
    "Litiv.GLLobster.uniform_color_foreground",
    "Litiv.GLLobster.uniform_color_refuted"
   ],
   "note": "Proved for gray images. For BGRA images proved false for every colour whose red and blue differ by more than the threshold."
  },
  {
   "property": "C166",
   "status": "partial",
   "theorems": [
    "Litiv.GLPipe.in_order",
    "Litiv.GLPipe.empty_repeats",
    "Litiv.GLPipe.last_output",
    "Litiv.GLPipe.last_input_partial",
    "Litiv.GLPipe.last_input_refuted"
   ],
   "note": "Order and repetition proved (repetition for two layers, as built). The last input layer is right with input buffers or three layers; as built, it holds the next frame already (no shader of the project reads it)."
  },
  {
   "property": "C167",
   "status": "partial",
   "theorems": [
    "Litiv.GLPipe.mask_partial",
    "Litiv.GLPipe.mask_refuted"
   ],
   "note": "Proved from the second call on, and for the first if output fetching was enabled before; otherwise the first mask is read from an unfilled buffer."
  },
  {
   "property": "C168",
   "status": "proved",
   "theorems": [
    "Litiv.GLPipe.consumer_packets",
    "Litiv.GLPipe.consumer_sequence"
   ],
   "note": "As many ground truth images as packets, as required by the one-to-one mapping."
  },
  {
   "property": "C169",
   "status": "partial",
   "theorems": [
    "Litiv.TextIO.text_roundtrip_partial",
    "Litiv.TextIO.text_roundtrip_small",
    "Litiv.TextIO.text_close",
    "Litiv.TextIO.text_exact_refuted",
    "Litiv.TextIO.text_nonfinite_refuted"
   ],
   "note": "Exact for values of at most six significant digits; 1234567 in an integer matrix comes back as 1234570, and infinities and NaN make the archive unreadable. Exponents of floating point numbers are unbounded in the model."
  },
  {
   "property": "C17",
   "status": "partial",
   "theorems": [
    "Litiv.Bits.popcountArr_spec_partial",
    "Litiv.Bits.hdistArr_spec_partial",
    "Litiv.Bits.hdistArr_exact",
    "Litiv.Bits.popcountArr_wraps",
    "Litiv.Bits.l1distArr_spec_partial",
    "Litiv.Bits.l1distArr_exact_sizet",
    "Litiv.Bits.l1distArr_wraps",
    "Litiv.Bits.l1distMasked_spec"
   ],
   "note": "Exact whenever the sum fits the output type; false for the default output types."
  },
  {
   "property": "C170",
   "status": "proved",
   "theorems": [
    "Litiv.Display.display_grid",
    "Litiv.Display.mouse_reports",
    "Litiv.Display.cursor_drawn"
   ],
   "note": "Conversion, resizing and drawing are a given function with results of the tile size."
  },
  {
   "property": "C171",
   "status": "partial",
   "theorems": [
    "Litiv.Display.display_fits_square_partial",
    "Litiv.Display.display_fits_partial",
    "Litiv.Display.display_not_enlarged_partial",
    "Litiv.Display.display_unchanged",
    "Litiv.Display.display_succeeds",
    "Litiv.Display.display_fits_refuted",
    "Litiv.Display.display_enlarged_refuted",
    "Litiv.Display.display_possible_refuted"
   ],
   "note": "Proved for square maximum sizes, and for wide ones unless the display is too wide but less wide in proportion: 2600x1950 is shown as 2560x1920 with the default maximum of 2560x1440. Tall maximum sizes can enlarge; extreme proportions give empty tiles and fail."
  },
  {
   "property": "C172",
   "status": "proved",
   "theorems": [
    "Litiv.Display.album_position",
    "Litiv.Display.album_escape",
    "Litiv.Display.pause_toggles",
    "Litiv.Display.pause_new",
    "Litiv.Display.wait_spec"
   ],
   "note": "Key codes of at least -1."
  },
  {
   "property": "C173",
   "status": "partial",
   "theorems": [
    "Litiv.Display.conv16u_spec",
    "Litiv.Display.conv32f_spec",
    "Litiv.Display.conv32s_partial",
    "Litiv.Display.conv32s_refuted",
    "Litiv.Display.annot_inside",
    "Litiv.Display.debug_point_refuted"
   ],
   "note": "Exact products in conversions. 32 bit values beyond 2^30 are all white or black; debugging output is printed for another pixel than the one under the mouse."
  },
  {
   "property": "C174",
   "status": "proved",
   "theorems": [
    "Litiv.Loader.packet_delivered_iff",
    "Litiv.Loader.packet_as_declared",
    "Litiv.Loader.packet_unchanged",
    "Litiv.Loader.packet_labels"
   ],
   "note": "Images of at most two dimensions; exact resizing factors; colour conversion as a given function of the pixel."
  },
  {
   "property": "C175",
   "status": "proved",
   "theorems": [
    "Litiv.Loader.arrays_history"
   ],
   "note": "Packing and unpacking inverse to each other, which is proved for the matrices of MatIO; the precacher by its contract."
  },
  {
   "property": "C176",
   "status": "partial",
   "theorems": [
    "Litiv.Loader.features_arrays_partial",
    "Litiv.Loader.features_packets_partial",
    "Litiv.Loader.features_mixed_refuted",
    "Litiv.Loader.features_saved_refuted",
    "Litiv.Loader.features_info_refuted",
    "Litiv.Loader.features_missing_refuted"
   ],
   "note": "Proved if packed and unpacked loads are not mixed, the packing information depends on the index only, the files can be unpacked and the packet last loaded is not overwritten; refuted without each of these."
  },
  {
   "property": "C177",
   "status": "proved",
   "theorems": [
    "Litiv.Loader.images_parsed",
    "Litiv.Loader.images_parse_fails_iff",
    "Litiv.Loader.images_delivered"
   ],
   "note": "Files do not change after parsing; exact scaling products."
  },
  {
   "property": "C178",
   "status": "proved",
   "theorems": [
    "Litiv.Loader.video_history",
    "Litiv.Loader.gt_delivered"
   ],
   "note": "cv::VideoCapture by contract: seeking sets the position, reading advances it, the reported number of frames is the number that can be read."
  },
  {
   "property": "C179",
   "status": "partial",
   "theorems": [
    "Litiv.KofN.kofn_choice_partial",
    "Litiv.KofN.kofn_every",
    "Litiv.KofN.kofn_closed_refuted"
   ],
   "note": "Proved for draws in [0,1). The generator is set up for the interval [0, next double after 1): a draw of exactly 1 can leave values unwritten."
  },
  {
   "property": "C18",
   "status": "partial",
   "theorems": [
    "Litiv.Bits.l1distU_spec",
    "Litiv.Bits.l1distS_spec",
    "Litiv.Bits.l2sqrdist8_spec",
    "Litiv.Bits.l2sqrdist16_undefined",
    "Litiv.Bits.l2sqrdistArr8_wraps",
    "Litiv.Bits.l2sqrdistArr8_spec_partial",
    "Litiv.Bits.cdist8_spec",
    "Litiv.Bits.cdist8_le",
    "Litiv.Bits.cdist8_parallel"
   ],
   "note": "Scalar distances and cdist in full; the array form of L2sqrdist/L2dist wraps (refuted)."
  },
  {
   "property": "C180",
   "status": "proved",
   "theorems": [
    "Litiv.Bsds.graph_fits",
    "Litiv.Bsds.bench_counts",
    "Litiv.Bsds.solver_exists"
   ],
   "note": "For draws in [0,1) and an assignment solver (csa.cpp, not modelled) that returns perfect matchings of solvable graphs; exact distances."
  },
  {
   "property": "C181",
   "status": "partial",
   "theorems": [
    "Litiv.Bsds.simple_counts_partial",
    "Litiv.Bsds.simple_precision_refuted"
   ],
   "note": "Recall as stated. Precision counts only the first detection found for each groundtruth pixel: a perfect detection can have precision 1/2."
  },
  {
   "property": "C182",
   "status": "partial",
   "theorems": [
    "Litiv.Bsds.thresholds_default",
    "Litiv.Bsds.thresholds_last_refuted",
    "Litiv.Bsds.bins_shared_partial",
    "Litiv.Bsds.bins_exact_partial",
    "Litiv.Bsds.bins_exact_refuted"
   ],
   "note": "Exact when no pixel has exactly the value of a lower threshold; otherwise the counters may be those of a lower threshold. With 25 bins the last threshold is 254."
  },
  {
   "property": "C183",
   "status": "proved",
   "theorems": [
    "Litiv.BsdsScore.best_score"
   ],
   "note": "Exact arithmetic."
  },
  {
   "property": "C184",
   "status": "proved",
   "theorems": [
    "Litiv.BsdsScore.scores_cumulated"
   ],
   "note": "Exact arithmetic; as many entries per image as thresholds, which the code asserts."
  },
  {
   "property": "C185",
   "status": "partial",
   "theorems": [
    "Litiv.BsdsScore.area_partial",
    "Litiv.BsdsScore.area_refuted"
   ],
   "note": "Refuted: unless all overall recalls are equal (area 0), the computation throws a domain error or reads past the end of a vector; the outcome is determined in all cases."
  },
  {
   "property": "C186",
   "status": "partial",
   "theorems": [
    "Litiv.Report.reports_partial",
    "Litiv.Report.reports_refuted"
   ],
   "note": "Proved when no directory has the name of the dataset; otherwise its report is overwritten. Metrics of a handler as a given function (C33 and C37 cover them); text formatting not modelled."
  },
  {
   "property": "C187",
   "status": "partial",
   "theorems": [
    "Litiv.CudaAff.gpu_affinity_partial",
    "Litiv.CudaAff.disparities_dropped",
    "Litiv.CudaAff.disparities_refuted",
    "Litiv.CudaAff.patch_nine_dropped",
    "Litiv.CudaAff.patch_refuted",
    "Litiv.CudaAff.refused_refuted",
    "Litiv.CudaAff.range_cache_refuted"
   ],
   "note": "Proved for up to 128 or 193 to 254 disparities, patches of 1, 3, 5, 7, 11, 15 and calls of one host thread; refuted for 129 to 192 disparities, patches of 9, one region only, large patches, and several host threads. Exact real numbers."
  },
  {
   "property": "C188",
   "status": "partial",
   "theorems": [
    "Litiv.CudaSC.gpu_rows_partial",
    "Litiv.CudaSC.gpu_map_partial",
    "Litiv.CudaSC.empty_refuted",
    "Litiv.CudaSC.sparse_refuted",
    "Litiv.CudaSC.shared_refuted",
    "Litiv.CudaSC.block_refuted",
    "Litiv.CudaSC.lockstep_refuted",
    "Litiv.CudaSC.rounding_refuted",
    "Litiv.CudaSC.default_block"
   ],
   "note": "Proved for points on the pixel grid, for all schedules: without normalization for every block size that fits in shared memory, with normalization for 32 threads and (at most 32 bins or warps in lockstep) and descriptors that are not all zero. The rest is false: NaN for empty descriptors, races with 64 threads or without lockstep, shared memory overrun above 64 threads, maps of key points computed everywhere, other rounding of halves."
  },
  {
   "property": "C189",
   "status": "proved",
   "theorems": [
    "Litiv.DirList.files_listed",
    "Litiv.DirList.subdirs_listed",
    "Litiv.DirList.listing_order",
    "Litiv.DirList.listing_missing"
   ],
   "note": "POSIX branch; directories as lists of names and kinds."
  },
  {
   "property": "C19",
   "status": "partial",
   "theorems": [
    "Litiv.Bits.expandBits_spec",
    "Litiv.Bits.expandBits_injective",
    "Litiv.Bits.expandBits_undefined_64"
   ],
   "note": "Proved for types of up to 32 bits; undefined for 64-bit types (refuted)."
  },
  {
   "property": "C190",
   "status": "partial",
   "theorems": [
    "Litiv.DirList.number_order_partial",
    "Litiv.DirList.number_order_refuted"
   ],
   "note": "Proved for numbers of fixed width with leading zeros; otherwise 10 comes before 9."
  },
  {
   "property": "C191",
   "status": "partial",
   "theorems": [
    "Litiv.DirList.cdnet_partial",
    "Litiv.DirList.cdnet_refuted",
    "Litiv.DirList.cdnet_covered",
    "Litiv.DirList.cdnet_names"
   ],
   "note": "Proved when frames and ground truth files have the same numbers of six digits; frames are paired by position only, so that equally many files with other numbers are accepted and mispaired. Coverage, refusal of other counts and output names proved in full."
  },
  {
   "property": "C192",
   "status": "partial",
   "theorems": [
    "Litiv.DirList.wallflower_partial",
    "Litiv.DirList.wallflower_first_refuted",
    "Litiv.DirList.wallflower_path_refuted"
   ],
   "note": "Proved for frames numbered from zero below directories whose path does not hold the searched texts; both conditions are needed."
  },
  {
   "property": "C193",
   "status": "partial",
   "theorems": [
    "Litiv.DirList.pets_partial",
    "Litiv.DirList.pets_refuted"
   ],
   "note": "Proved for numbers of four digits below directories whose path does not hold the prefix; both conditions are needed."
  },
  {
   "property": "C194",
   "status": "partial",
   "theorems": [
    "Litiv.Subset.subset_file",
    "Litiv.Subset.subset_rejects",
    "Litiv.Subset.subset_negative",
    "Litiv.Subset.subset_blank_refuted"
   ],
   "note": "Proved for files of comments and numbers; a blank line anywhere makes the file unreadable."
  },
  {
   "property": "C195",
   "status": "partial",
   "theorems": [
    "Litiv.Subset.vap_load_partial",
    "Litiv.Subset.vap_plain",
    "Litiv.Subset.vap_eval_partial",
    "Litiv.Subset.vap_end_refuted",
    "Litiv.Subset.vap_break_refuted",
    "Litiv.Subset.vap_sparse_refuted"
   ],
   "note": "Proved when windows end before the sequence does and every frame has ground truth, breaks when the subset is loaded or absent. The rest is false: windows past the last frame, breaks when the subset is only evaluated, ground truth for some frames only."
  },
  {
   "property": "C196",
   "status": "partial",
   "theorems": [
    "Litiv.Subset.litiv_load_partial",
    "Litiv.Subset.litiv_eval_partial",
    "Litiv.Subset.litiv_plain_partial",
    "Litiv.Subset.litiv_path_refuted"
   ],
   "note": "Proved for ground truth directories whose path has no five digits in a row and at most 100000 frames; false otherwise, since numbers are searched in whole paths."
  },
  {
   "property": "C197",
   "status": "partial",
   "theorems": [
    "Litiv.Subset.vap_range_partial",
    "Litiv.Subset.vap_range_default",
    "Litiv.Subset.vap_range_refuted",
    "Litiv.Subset.litiv_range_partial",
    "Litiv.Subset.litiv_range_refuted"
   ],
   "note": "Proved at scale 1; false at other scales, and VAP does not refuse a minimum above the maximum."
  },
  {
   "property": "C198",
   "status": "proved",
   "theorems": [
    "Litiv.EvalRun.image_push",
    "Litiv.EvalRun.image_metrics",
    "Litiv.EvalRun.image_metrics_off"
   ],
   "note": "Any history of calls on a new batch; counts up to the wrap-around of 64-bit counters."
  },
  {
   "property": "C199",
   "status": "partial",
   "theorems": [
    "Litiv.EvalRun.count_evaluated_partial",
    "Litiv.EvalRun.count_refuted",
    "Litiv.EvalRun.image_saved",
    "Litiv.EvalRun.arr_saved"
   ],
   "note": "Saved outputs: proved. Counts: proved when no push fails and no packet is pushed twice; false otherwise, since packets are counted before they are evaluated."
  },
  {
   "property": "C20",
   "status": "proved",
   "theorems": [
    "Litiv.MathSeq.findNNIndex_spec",
    "Litiv.MathSeq.findNNIndex_determined"
   ],
   "note": ""
  },
  {
   "property": "C200",
   "status": "partial",
   "theorems": [
    "Litiv.EvalRun.arr_metrics_partial",
    "Litiv.EvalRun.arr_push",
    "Litiv.EvalRun.arr_refuted"
   ],
   "note": "Proved when every array of the right length is fit for evaluation; false otherwise, since earlier streams are accumulated before a later one throws."
  },
  {
   "property": "C201",
   "status": "proved",
   "theorems": [
    "Litiv.Bilodeau.packets"
   ],
   "note": "Directories whose paths contain neither IR nor Vis, frame names of digits, each common name once."
  },
  {
   "property": "C202",
   "status": "partial",
   "theorems": [
    "Litiv.Bilodeau.truth_partial",
    "Litiv.Bilodeau.truth_scaled",
    "Litiv.Bilodeau.blank_refused",
    "Litiv.Bilodeau.first_line_refused",
    "Litiv.Bilodeau.truncated_refuted"
   ],
   "note": "Proved at every size for files made of complete records; a record cut after its third line, without line feed, is accepted with wrong values."
  },
  {
   "property": "C203",
   "status": "partial",
   "theorems": [
    "Litiv.Bilodeau.range_partial",
    "Litiv.Bilodeau.range_file",
    "Litiv.Bilodeau.range_refuted"
   ],
   "note": "Proved at scale 1 with a positive disparity; false at other scales (truncated bounds, rounded values, saturation) and for sequences without positive disparity."
  },
  {
   "property": "C204",
   "status": "proved",
   "theorems": [
    "Litiv.Corresp.maps_exact",
    "Litiv.Corresp.maps_refused"
   ],
   "note": "At the original size; pairs shown are inside the image and the offset is smaller than its width."
  },
  {
   "property": "C205",
   "status": "partial",
   "theorems": [
    "Litiv.Corresp.disparity_match_partial",
    "Litiv.Corresp.disparity_match_refuted"
   ],
   "note": "Proved at scale 1 for ranges that start at 0 or whose minimum is larger in magnitude than the maximum; false for others, for example 2 to 30."
  },
  {
   "property": "C206",
   "status": "proved",
   "theorems": [
    "Litiv.Corresp.unpresent_present"
   ],
   "note": "Mirroring and offset of the LWIR stream at the original size; unwarping and resizing are not modelled."
  },
  {
   "property": "C207",
   "status": "partial",
   "theorems": [
    "Litiv.Files.prealloc_partial",
    "Litiv.Files.prealloc_crash",
    "Litiv.Files.prealloc_refuses",
    "Litiv.Files.prealloc_refuted"
   ],
   "note": "False for files that can be written but not read: they are emptied. Writes are assumed to succeed."
  },
  {
   "property": "C208",
   "status": "partial",
   "theorems": [
    "Litiv.Files.createDir_partial",
    "Litiv.Files.createDir_sound",
    "Litiv.Files.createDir_keeps",
    "Litiv.Files.createDir_refuted"
   ],
   "note": "Exact without other processes; false is returned when another process creates the directory in between."
  },
  {
   "property": "C209",
   "status": "partial",
   "theorems": [
    "Litiv.OutDir.output_dirs_partial",
    "Litiv.OutDir.output_frame",
    "Litiv.OutDir.output_tree",
    "Litiv.OutDir.output_empty",
    "Litiv.OutDir.output_refuted",
    "Litiv.OutDir.backslash_refuted"
   ],
   "note": "Proved when the parent of the global directory exists and no file is in the way, with other processes making directories; false otherwise, since failures are ignored. Symbolic links and .. are not interpreted."
  },
  {
   "property": "C21",
   "status": "partial",
   "theorems": [
    "Litiv.LU.lu_solves_system",
    "Litiv.LU.lu_success_invertible",
    "Litiv.LU.pivotRow_max",
    "Litiv.LU.invert_spec",
    "Litiv.LU.invert_singular",
    "Litiv.LU.small_complete",
    "Litiv.LU.determinant_spec_partial",
    "Litiv.LU.determinant_singular",
    "Litiv.LU.invert_complete",
    "Litiv.LU.well_conditioned",
    "Litiv.LU.determinant_small_pivot"
   ],
   "note": "Exact ordered field. A*B=I on success, in full; exact whenever the matrix shrinks no vector by more than sqrt(N)*epsilon; otherwise determinant is exact or 0: with N>=4 it is 0 for invertible matrices with a pivot below epsilon (determinant_small_pivot)."
  },
  {
   "property": "C210",
   "status": "partial",
   "theorems": [
    "Litiv.OutDir.handler_dirs",
    "Litiv.OutDir.batch_below",
    "Litiv.OutDir.siblings_apart",
    "Litiv.OutDir.dataset_dirs",
    "Litiv.OutDir.precomp_refuted"
   ],
   "note": "Under the hypotheses of C209; a batch called precomp shares the feature directory of its group."
  },
  {
   "property": "C211",
   "status": "partial",
   "theorems": [
    "Litiv.DispMask.mask_partial",
    "Litiv.DispMask.mask_empty",
    "Litiv.DispMask.mask_refuted"
   ],
   "note": "Proved when some pixel other than the first has no error to show; false otherwise, the smallest error being shown as none."
  },
  {
   "property": "C212",
   "status": "partial",
   "theorems": [
    "Litiv.Flow.diff_partial",
    "Litiv.Flow.diff_whole",
    "Litiv.Flow.diff_range_partial",
    "Litiv.Flow.diff_channels",
    "Litiv.Flow.diff_refused",
    "Litiv.Flow.diff_smooth",
    "Litiv.Flow.diff_refuted"
   ],
   "note": "Proved where the flow leads to coordinates which are not negative; false at the left and top borders, where values are extrapolated. Exact arithmetic; the smoothing itself is not modelled."
  },
  {
   "property": "C213",
   "status": "proved",
   "theorems": [
    "Litiv.Flow.remap_nearest",
    "Litiv.Flow.remap_moves",
    "Litiv.Flow.remap_diff"
   ],
   "note": "Nearest-neighbour interpolation, constant and repeated borders; exact arithmetic."
  },
  {
   "property": "C214",
   "status": "partial",
   "theorems": [
    "Litiv.ResegmGraph.node_info",
    "Litiv.ResegmGraph.node_numbering",
    "Litiv.ResegmGraph.create_partial",
    "Litiv.ResegmGraph.create_refuted"
   ],
   "note": "Nodes and numbering proved in general; regions of interest which cover the whole image are refused by an assertion."
  },
  {
   "property": "C215",
   "status": "proved",
   "theorems": [
    "Litiv.ResegmGraph.pairs_exact",
    "Litiv.ResegmGraph.pair_members",
    "Litiv.ResegmGraph.temporal_exact"
   ],
   "note": "The graph as built; temporal terms are moved along optical flows later."
  },
  {
   "property": "C216",
   "status": "proved",
   "theorems": [
    "Litiv.ResegmGraph.functions_apart",
    "Litiv.ResegmGraph.functions_reserved"
   ],
   "note": "Unbounded naturals instead of size_t; the memory limit check is not modelled."
  },
  {
   "property": "C217",
   "status": "proved",
   "theorems": [
    "Litiv.ResegmCost.link_follows",
    "Litiv.ResegmCost.still_link"
   ],
   "note": "Exact rationals instead of float, unbounded indices; flows are inputs. Coordinates beyond the range of int are not modelled."
  },
  {
   "property": "C218",
   "status": "proved",
   "theorems": [
    "Litiv.ResegmCost.matching_exact",
    "Litiv.ResegmCost.unary_costs",
    "Litiv.ResegmCost.pair_costs",
    "Litiv.ResegmCost.temp_table",
    "Litiv.ResegmCost.temp_steady"
   ],
   "note": "Exact rationals instead of float, unbounded costs; distances, likelihoods and factors are nonnegative inputs. Submodularity of temporal tables is shown for two frames."
  },
  {
   "property": "C219",
   "status": "proved",
   "theorems": [
    "Litiv.RootSift.root_defined",
    "Litiv.RootSift.root_order",
    "Litiv.RootSift.root_length",
    "Litiv.RootSift.root_hellinger"
   ],
   "note": "Exact reals instead of float and double."
  },
  {
   "property": "C22",
   "status": "proved",
   "theorems": [
    "Litiv.Sampling.clamp_spec",
    "Litiv.Sampling.sample3_in_window",
    "Litiv.Sampling.sample7_in_window",
    "Litiv.Sampling.neighbor_in_window",
    "Litiv.Sampling.neighbor3_frequency",
    "Litiv.Sampling.neighbor5_frequency",
    "Litiv.Sampling.neighbor_negative_undefined"
   ],
   "note": "Random numbers are non-negative (as produced by rand()); a negative one indexes outside the neighbour table."
  },
  {
   "property": "C220",
   "status": "partial",
   "theorems": [
    "Litiv.RootSift.sparseness_range_partial",
    "Litiv.RootSift.sparseness_invariant",
    "Litiv.RootSift.sparseness_refuted"
   ],
   "note": "Exact reals instead of double. The zero vector gives zero divided by zero, which is not a number."
  },
  {
   "property": "C221",
   "status": "proved",
   "theorems": [
    "Litiv.ShapeDist.values",
    "Litiv.ShapeDist.range_zero",
    "Litiv.ShapeDist.complement_swaps",
    "Litiv.ShapeDist.grows"
   ],
   "note": "Exact reals; OpenCV's distance transform and divisions by zero are modelled by their documented results."
  },
  {
   "property": "C222",
   "status": "partial",
   "theorems": [
    "Litiv.DepthMap.remap_defined_partial",
    "Litiv.DepthMap.remap_refuted",
    "Litiv.DepthMap.depth_values"
   ],
   "note": "Map entries as exact rationals. Entries in the last half pixel pass the test and are rounded to a row or column outside of the raw image. Undistortion, rectification and resizing are not modelled."
  },
  {
   "property": "C223",
   "status": "partial",
   "theorems": [
    "Litiv.DepthMap.mask_mirrored_partial",
    "Litiv.DepthMap.mask_refuted"
   ],
   "note": "Depth images are mirrored with RGB images and ground truth masks are not, so they only fit without mirroring."
  },
  {
   "property": "C224",
   "status": "proved",
   "theorems": [
    "Litiv.CudaToggle.toggle_inv",
    "Litiv.CudaToggle.init_effect",
    "Litiv.CudaToggle.construct_effect",
    "Litiv.CudaToggle.enable_effect"
   ],
   "note": "One host thread; the CUDA runtime by contract, failing arbitrarily."
  },
  {
   "property": "C225",
   "status": "partial",
   "theorems": [
    "Litiv.CudaToggle.device_partial",
    "Litiv.CudaToggle.device_refuted"
   ],
   "note": "Proved when all calls name the same device; false otherwise, since the current device is shared and never set again, and is changed even by an initialization that fails."
  },
  {
   "property": "C226",
   "status": "proved",
   "theorems": [
    "Litiv.Canny.smoothing",
    "Litiv.Canny.strength_defined",
    "Litiv.Canny.confidence_order",
    "Litiv.Canny.confidence_range"
   ],
   "note": "Exact arithmetic; cv::Canny and cv::GaussianBlur are arbitrary functions. If all pixels are edges for equally many thresholds, the map is zero."
  },
  {
   "property": "C227",
   "status": "partial",
   "theorems": [
    "Litiv.Canny.thresholds",
    "Litiv.Canny.default_partial",
    "Litiv.Canny.default_refuted"
   ],
   "note": "Negative thresholds stand for the default; thresholds above 1 are used as they are, unlike documented."
  },
  {
   "property": "C228",
   "status": "partial",
   "theorems": [
    "Litiv.Canny.in_place_partial",
    "Litiv.Canny.in_place_refuted"
   ],
   "note": "False: a single-channel input is set to zero first when it is the output."
  },
  {
   "property": "C229",
   "status": "partial",
   "theorems": [
    "Litiv.MatType.accepted",
    "Litiv.MatType.description",
    "Litiv.MatType.names_distinct",
    "Litiv.MatType.raw_denotes",
    "Litiv.MatType.compat_refuted"
   ],
   "note": "False only in release builds, where a matrix of five or more channels gets a type compatible with elements of four values; proved for one to four channels."
  },
  {
   "property": "C23",
   "status": "proved",
   "theorems": [
    "Litiv.Sampling.sample3_frequency",
    "Litiv.Sampling.sample7_frequency"
   ],
   "note": ""
  },
  {
   "property": "C230",
   "status": "partial",
   "theorems": [
    "Litiv.MatType.same_partial",
    "Litiv.MatType.same_refuted"
   ],
   "note": "Proved for codes of at most 12 bits; accepted codes with higher bits denote the same values but are unequal."
  },
  {
   "property": "C231",
   "status": "proved",
   "theorems": [
    "Litiv.LutText.table_declared",
    "Litiv.LutText.table_injective"
   ],
   "note": "Read back with a small reader of array constructors with decimal literals."
  },
  {
   "property": "C232",
   "status": "partial",
   "theorems": [
    "Litiv.VapLoad.packets_defined",
    "Litiv.VapLoad.packet_counts",
    "Litiv.VapLoad.announced_partial",
    "Litiv.VapLoad.size_refuted",
    "Litiv.VapLoad.depth_refuted"
   ],
   "note": "False for scaled images which are undistorted (given in original size) and for depth images (16 bits, announced as 8); proved for all other combinations."
  },
  {
   "property": "C233",
   "status": "partial",
   "theorems": [
    "Litiv.VapLoad.aligned_partial",
    "Litiv.VapLoad.rotated"
   ],
   "note": "Proved for images in original size and remappings which move pixels; the thermal ground truth of scene 3 is translated on purpose and left out."
  },
  {
   "property": "C234",
   "status": "partial",
   "theorems": [
    "Litiv.VapLoad.mask_choice",
    "Litiv.VapLoad.mask_gt_partial",
    "Litiv.VapLoad.mask_gt_refuted"
   ],
   "note": "False in scene 3, where only the ground truth is translated, not the same masks loaded as input."
  },
  {
   "property": "C235",
   "status": "proved",
   "theorems": [
    "Litiv.TinyMT.alive",
    "Litiv.TinyMT.dead_zero",
    "Litiv.TinyMT.seeds_distinct",
    "Litiv.TinyMT.reversible",
    "Litiv.TinyMT.draw_state",
    "Litiv.TinyMT.output_uniform",
    "Litiv.TinyMT.each_generator",
    "Litiv.TinyMT.first_draws"
   ],
   "note": "Words of 32 bits as BitVec; the period is not part of the property, and first_draws is only a check of constants. The number of generators is taken without wrap-around."
  },
  {
   "property": "C236",
   "status": "partial",
   "theorems": [
    "Litiv.TinyMT.hash_injective",
    "Litiv.TinyMT.hash_alive",
    "Litiv.TinyMT.hash_distinct",
    "Litiv.TinyMT.hash_zero_iff",
    "Litiv.TinyMT.hash_zero_refuted",
    "Litiv.TinyMT.hash_values"
   ],
   "note": "All seeds are kept apart, but the seed zero is stuck (hash_zero_refuted)."
  },
  {
   "property": "C237",
   "status": "proved",
   "theorems": [
    "Litiv.LineNum.empty",
    "Litiv.LineNum.numbered",
    "Litiv.LineNum.recover"
   ],
   "note": "The line counter is taken without overflow."
  },
  {
   "property": "C238",
   "status": "partial",
   "theorems": [
    "Litiv.GLFormat.mat_supported",
    "Litiv.GLFormat.internal_supported",
    "Litiv.GLFormat.internal_defined",
    "Litiv.GLFormat.internal_contents",
    "Litiv.GLFormat.internal_told",
    "Litiv.GLFormat.round_trip_partial",
    "Litiv.GLFormat.round_trip_refuted",
    "Litiv.GLFormat.normalized_contents",
    "Litiv.GLFormat.integral_contents",
    "Litiv.GLFormat.pixel_formats",
    "Litiv.GLFormat.data_types"
   ],
   "note": "Three channels of bytes become four (round_trip_refuted); all else is proved. Values of the constants are those of the OpenGL and OpenCV headers."
  },
  {
   "property": "C239",
   "status": "partial",
   "theorems": [
    "Litiv.GLFormat.upload_partial",
    "Litiv.GLFormat.upload_refuted",
    "Litiv.GLFormat.names_distinct",
    "Litiv.GLFormat.names_valid_partial",
    "Litiv.GLFormat.names_valid_refuted"
   ],
   "note": "Fails for floats with integral storage (upload_refuted) and for three channels of 32 bits in images (names_valid_refuted); proved otherwise."
  },
  {
   "property": "C24",
   "status": "partial",
   "theorems": [
    "Litiv.MatIO.bin_roundtrip",
    "Litiv.MatIO.bin_truncated",
    "Litiv.MatIO.write_hollow",
    "Litiv.MatIO.bin_overflow_refuted",
    "Litiv.MatIO.bin_safe_partial",
    "Litiv.MatIO.lz4_roundtrip",
    "Litiv.MatIO.lz4_truncated_partial",
    "Litiv.MatIO.lz4_truncated_refuted"
   ],
   "note": "Round trips proved for both binary formats (LZ4 library by its contract). Truncation: proved for the plain binary format; refuted for LZ4 archives holding uncompressed data."
  },
  {
   "property": "C240",
   "status": "proved",
   "theorems": [
    "Litiv.GLFormat.copies",
    "Litiv.GLFormat.buffer"
   ],
   "note": "Sizes are natural numbers: the products of int do not overflow."
  },
  {
   "property": "C241",
   "status": "partial",
   "theorems": [
    "Litiv.GLTex.containers_partial",
    "Litiv.GLTex.left_bound_refuted",
    "Litiv.GLTex.other_written_refuted",
    "Litiv.GLTex.part_refuted",
    "Litiv.GLTex.part_rows"
   ],
   "note": "Proved for calls with rebinding; false with the default arguments, and for one layer of several copied to a buffer without glGetTextureSubImage, when all layers are copied (part_rows). Missing: columns and value types, drivers."
  },
  {
   "property": "C242",
   "status": "partial",
   "theorems": [
    "Litiv.GLTex.levels_partial",
    "Litiv.GLTex.levels_restored",
    "Litiv.GLTex.levels_refuted"
   ],
   "note": "False after writes from buffers, and for writes without new levels; proved otherwise."
  },
  {
   "property": "C243",
   "status": "proved",
   "theorems": [
    "Litiv.Coseg.accepted_iff",
    "Litiv.Coseg.ready_after",
    "Litiv.Coseg.not_started",
    "Litiv.Coseg.images_only",
    "Litiv.Coseg.set_back"
   ],
   "note": "Regions of interest of IVideoCosegmentor_, several streams"
  },
  {
   "property": "C244",
   "status": "partial",
   "theorems": [
    "Litiv.Coseg.set_iff",
    "Litiv.Coseg.set_masks",
    "Litiv.Coseg.set_refused",
    "Litiv.Coseg.refused_keeps_partial",
    "Litiv.Coseg.refused_keeps_refuted",
    "Litiv.Coseg.set_counts_refuted",
    "Litiv.Coseg.caller_masks_refuted"
   ],
   "note": "False in the code: setROIs leaves the counts of the former masks, accepts masks of another size and masks with no useful pixel; a refused start may have replaced the first streams, and refused masks may have been changed for the caller"
  },
  {
   "property": "C245",
   "status": "proved",
   "theorems": [
    "Litiv.Coseg.apply_list"
   ],
   "note": "Vector form of IICosegmentor::apply"
  },
  {
   "property": "C246",
   "status": "partial",
   "theorems": [
    "Litiv.GMInfo.printed",
    "Litiv.GMInfo.labels_partial",
    "Litiv.GMInfo.labels_refuted"
   ],
   "note": "False in the code for a model without variables, which is said to have SIZE_MAX labels at least and 0 at most"
  },
  {
   "property": "C247",
   "status": "proved",
   "theorems": [
    "Litiv.Billboard.covers",
    "Litiv.Billboard.covers_once",
    "Litiv.Billboard.shows",
    "Litiv.Billboard.pixel_exact",
    "Litiv.Billboard.pixel_drawn",
    "Litiv.Billboard.front_facing"
   ],
   "note": "Vertices and indices of GLScreenBillboard under exact rasterisation"
  },
  {
   "property": "C248",
   "status": "proved",
   "theorems": [
    "Litiv.UnlockGuard.scope",
    "Litiv.UnlockGuard.defined",
    "Litiv.UnlockGuard.others_kept",
    "Litiv.UnlockGuard.waits_empty",
    "Litiv.UnlockGuard.finishes",
    "Litiv.UnlockGuard.distinct_needed"
   ],
   "note": "std::lock modelled as taking mutexes in turn and backing off; one guard per thread at a time"
  },
  {
   "property": "C249",
   "status": "partial",
   "theorems": [
    "Litiv.ChangeDet.complete",
    "Litiv.ChangeDet.prefix_pushed",
    "Litiv.ChangeDet.stopped",
    "Litiv.ChangeDet.batches_apart",
    "Litiv.ChangeDet.code_report",
    "Litiv.ChangeDet.exit_code_refuted",
    "Litiv.ChangeDet.display_refuted",
    "Litiv.ChangeDet.display_partial",
    "Litiv.ChangeDet.display_outside"
   ],
   "note": "Proved for every failure point: prefix, order, masks, stop. False in two respects: the display changes the masks pushed outside the region of interest, and a run in which every batch failed ends with code 0."
  },
  {
   "property": "C25",
   "status": "proved",
   "theorems": [
    "Litiv.MatIO.pack_roundtrip",
    "Litiv.MatIO.pack_channels",
    "Litiv.MatIO.unpack_sound",
    "Litiv.MatIO.unpack_mismatch",
    "Litiv.MatIO.pack_hollow_refuted"
   ],
   "note": "pack_hollow_refuted records that the shape of a matrix without elements is not restored."
  },
  {
   "property": "C250",
   "status": "partial",
   "theorems": [
    "Litiv.ChangeDet.repeatable_partial",
    "Litiv.ChangeDet.repeatable_refuted"
   ],
   "note": "Holds with one worker; false with two, since the generator is shared and seeded by each batch."
  },
  {
   "property": "C251",
   "status": "partial",
   "theorems": [
    "Litiv.VidReg.rows_written",
    "Litiv.VidReg.average_partial",
    "Litiv.VidReg.average_below",
    "Litiv.VidReg.average_defined",
    "Litiv.VidReg.blob_constant",
    "Litiv.VidReg.average_refuted"
   ],
   "note": "Rows proved. The averages are means only when all frames are read, nobody quits and no transformation is lost; otherwise they are too small (proved), and the blob error is always zero."
  },
  {
   "property": "C252",
   "status": "proved",
   "theorems": [
    "Litiv.Capture.synchronised",
    "Litiv.Capture.same_number",
    "Litiv.Capture.asserts_hold",
    "Litiv.Capture.recorded",
    "Litiv.Capture.memory_bounded"
   ],
   "note": "Writers save at any time between two operations of the main thread; errors of the disk are left out."
  },
  {
   "property": "C253",
   "status": "partial",
   "theorems": [
    "Litiv.CosegmPush.all_pushed_partial",
    "Litiv.CosegmPush.pushed_in_order",
    "Litiv.CosegmPush.subset_complete",
    "Litiv.CosegmPush.full_video_lost",
    "Litiv.CosegmPush.all_pushed_refuted"
   ],
   "note": "Holds when the batch ends where a window ends, as with frame subsets; videos loaded in full lose the results of their last frames, as many as the temporal depth."
  },
  {
   "property": "C254",
   "status": "partial",
   "theorems": [
    "Litiv.Pretrain.order_partial",
    "Litiv.Pretrain.short_video",
    "Litiv.Pretrain.order_refuted"
   ],
   "note": "Holds for videos longer than the last index of the pretraining; shorter ones are seen once and leave the loop in the middle of the first pass."
  },
  {
   "property": "C255",
   "status": "partial",
   "theorems": [
    "Litiv.RectEdit.kept",
    "Litiv.RectEdit.reload",
    "Litiv.RectEdit.safe_partial",
    "Litiv.RectEdit.selects_nearest",
    "Litiv.RectEdit.drawn",
    "Litiv.RectEdit.removed",
    "Litiv.RectEdit.other_image",
    "Litiv.RectEdit.in_range",
    "Litiv.RectEdit.safe_refuted"
   ],
   "note": "Three clicks across the two images make an assertion fail; histories whose clicks are all in one image never fail. The other parts hold for all histories."
  },
  {
   "property": "C26",
   "status": "partial",
   "theorems": [
    "Litiv.Simd.encRow_spec",
    "Litiv.Simd.decRow_spec",
    "Litiv.Simd.ycbcr_roundtrip",
    "Litiv.Simd.encRow_unaligned_refuted"
   ],
   "note": "Proved for every row, width and content, in the vectorised and scalar builds. Missing: a misaligned view of an aligned matrix passed as output, refuted (aligned stores fault). cv::cvtColor, cv::split and cv::merge are outside the model."
  },
  {
   "property": "C27",
   "status": "proved",
   "theorems": [
    "Litiv.Reducer.clique_exact",
    "Litiv.Reducer.clique_unused",
    "Litiv.Reducer.factor_exact",
    "Litiv.Reducer.terms_sorted"
   ],
   "note": "Exact arithmetic (energies in any ring, no rounding); cliques of at most 31 variables, the width of the int masks."
  },
  {
   "property": "C28",
   "status": "partial",
   "theorems": [
    "Litiv.Precacher.transparent_partial",
    "Litiv.Precacher.transparent_refuted",
    "Litiv.Precacher.held_intact",
    "Litiv.Precacher.held_freed_refuted",
    "Litiv.Precacher.request_served",
    "Litiv.Precacher.never_throws"
   ],
   "note": "Every returned packet is the loader's, except that the last packet may be returned again after its buffer was freed (transparent_refuted); a loader failure on another packet frees the packet the user holds (held_freed_refuted)."
  },
  {
   "property": "C29",
   "status": "proved",
   "theorems": [
    "Litiv.Precacher.no_undefined",
    "Litiv.Precacher.regions_disjoint",
    "Litiv.Precacher.cache_contents",
    "Litiv.Precacher.buffer_size"
   ],
   "note": ""
  },
  {
   "property": "C30",
   "status": "partial",
   "theorems": [
    "Litiv.Writer.accounting",
    "Litiv.Writer.conservation",
    "Litiv.Writer.delivered_partial",
    "Litiv.Writer.take_smallest",
    "Litiv.Writer.defined",
    "Litiv.Writer.queue_result",
    "Litiv.Writer.check_predicts",
    "Litiv.Writer.producer_progress",
    "Litiv.Writer.drop_never_waits",
    "Litiv.Writer.stop_returns",
    "Litiv.Writer.worker_decreases",
    "Litiv.Writer.two_workers_refuted",
    "Litiv.Writer.requeue_refuted",
    "Litiv.Writer.concurrent_stop_refuted",
    "Litiv.Writer.no_workers_refuted"
   ],
   "note": "Holds for one worker, no index queued again while it is being written, and no queue call concurrent with start/stop; each other case is refuted."
  },
  {
   "property": "C31",
   "status": "proved",
   "theorems": [
    "Litiv.Packets.count_distinct",
    "Litiv.Packets.push_accepted",
    "Litiv.Packets.count_order_free",
    "Litiv.Packets.init_ok",
    "Litiv.Packets.start_twice",
    "Litiv.Packets.cleared_iff"
   ],
   "note": ""
  },
  {
   "property": "C32",
   "status": "partial",
   "theorems": [
    "Litiv.Packets.packetName_injective",
    "Litiv.Packets.featuresName_injective",
    "Litiv.Packets.streamName_injective",
    "Litiv.Packets.names_sorted_partial",
    "Litiv.Packets.names_unsorted",
    "Litiv.Packets.imageName_base",
    "Litiv.Packets.image_names_collide"
   ],
   "note": "Default names are unique; they sort in packet order except for 10^6 to 10^7 and more than 10^9 packets (names_unsorted). Image file names lose their extension and can collide (image_names_collide)."
  },
  {
   "property": "C33",
   "status": "proved",
   "theorems": [
    "Litiv.Groups.count_sum",
    "Litiv.Groups.count_exact",
    "Litiv.Groups.getBatches_leaves",
    "Litiv.Groups.anyOf_leaves",
    "Litiv.Groups.metricsBase_totals",
    "Litiv.Groups.metricsBase_regroup"
   ],
   "note": "Totals wrap modulo 2^64 as size_t does."
  },
  {
   "property": "C34",
   "status": "proved",
   "theorems": [
    "Litiv.Metrics.accImage_counts",
    "Litiv.Metrics.accImage_no_gt",
    "Litiv.Metrics.accImage_total",
    "Litiv.Metrics.session_partition",
    "Litiv.Metrics.accImage_rejects"
   ],
   "note": ""
  },
  {
   "property": "C35",
   "status": "proved",
   "theorems": [
    "Litiv.Metrics.ratio_values",
    "Litiv.Metrics.fmeasure_value",
    "Litiv.Metrics.metrics_in_range",
    "Litiv.Metrics.recall_wraps"
   ],
   "note": "Over the reals (rounding not modelled). Beyond 2^64 evaluated pixels the sums wrap (recall_wraps)."
  },
  {
   "property": "C36",
   "status": "partial",
   "theorems": [
    "Litiv.Metrics.totals_sum",
    "Litiv.Metrics.totals_perm",
    "Litiv.Metrics.totals_grouping",
    "Litiv.Metrics.accImage_eq_acc",
    "Litiv.Metrics.isEqual_iff",
    "Litiv.Metrics.arr_totals_partial",
    "Litiv.Metrics.arr_order_matters",
    "Litiv.Metrics.arr_reduce"
   ],
   "note": "In full for single counters. For arrays of counters only among accumulators of one stream count: with an empty accumulator the order decides whether the assertion fails (arr_order_matters)."
  },
  {
   "property": "C37",
   "status": "proved",
   "theorems": [
    "Litiv.Groups.average_metrics",
    "Litiv.Groups.average_none",
    "Litiv.Groups.arr_acc_wmean",
    "Litiv.Groups.arr_acc_rejects",
    "Litiv.Groups.arr_reduce_mean"
   ],
   "note": "Over the reals. average_metrics ranges over all trees whose bare groups hold at most one work batch; parse_wf shows that parsing gives only such trees."
  },
  {
   "property": "C38",
   "status": "proved",
   "theorems": [
    "Litiv.LBSP.threshold_spec",
    "Litiv.LBSP.threshold_agree"
   ],
   "note": ""
  },
  {
   "property": "C39",
   "status": "partial",
   "theorems": [
    "Litiv.LBSP.neighbours_spec",
    "Litiv.LBSP.lookup_in_bounds",
    "Litiv.LBSP.validateROI_spec",
    "Litiv.LBSP.validateROI_small",
    "Litiv.LBSP.validateKeyPoints_partial",
    "Litiv.LBSP.kept_keypoint_in_bounds_partial",
    "Litiv.LBSP.validateKeyPoints_refuted",
    "Litiv.LBSP.validateKeyPointsROI_partial",
    "Litiv.LBSP.validateKeyPointsROI_refuted"
   ],
   "note": "Holds for keypoints at integer positions; keypoints at fractional positions are refuted."
  },
  {
   "property": "C40",
   "status": "proved",
   "theorems": [
    "Litiv.LBSP.masks_spec",
    "Litiv.LBSP.gradient_spec",
    "Litiv.LBSP.gradient_mirror_x",
    "Litiv.LBSP.gradient_mirror_y",
    "Litiv.LBSP.gradient_transpose",
    "Litiv.LBSP.gradient_range"
   ],
   "note": ""
  },
  {
   "property": "C41",
   "status": "partial",
   "theorems": [
    "Litiv.Thinning.thinning_terminates",
    "Litiv.Thinning.thins_unique",
    "Litiv.Thinning.thins_erodes",
    "Litiv.Thinning.thins_again_partial",
    "Litiv.Thinning.lamLeeSuen_out_of_bounds_refuted",
    "Litiv.Thinning.lamLeeSuen_stray_refuted",
    "Litiv.Thinning.lamLeeSuen_fixed_refuted"
   ],
   "note": "Fully proved for Zhang-Suen. Lam-Lee-Suen (the default) reads index 8 of an array of 8: refuted as written; proved for every byte that may be found there, re-thinning when that byte depends on image and place only."
  },
  {
   "property": "C42",
   "status": "partial",
   "theorems": [
    "Litiv.Filters.medianValue_partial",
    "Litiv.Filters.medianValue_empty_refuted"
   ],
   "note": "Proved whenever at least one pixel is selected; with an empty selection the code reads past its histogram."
  },
  {
   "property": "C43",
   "status": "partial",
   "theorems": [
    "Litiv.Filters.medianBlur_spec",
    "Litiv.Filters.lowerMedian_determined",
    "Litiv.Filters.binaryMedianBlur_masked",
    "Litiv.Filters.binaryMedianBlur_majority",
    "Litiv.Filters.binaryMedianBlur_unmasked",
    "Litiv.Filters.binaryMedianBlur_raw_refuted"
   ],
   "note": "Everything proved except binaryMedianBlur without mask and without conversion on 0/255 images, which is refuted. The empty-mask case of medianBlur is cv::medianBlur and not modelled."
  },
  {
   "property": "C44",
   "status": "partial",
   "theorems": [
    "Litiv.Maxima.nms_exact",
    "Litiv.Maxima.nms_sound_partial",
    "Litiv.Maxima.nms_complete_partial",
    "Litiv.Maxima.nms_isolated",
    "Litiv.Maxima.nms_strict_refuted",
    "Litiv.Maxima.nms_negative_refuted",
    "Litiv.Maxima.nms_masked_out_refuted",
    "Litiv.Maxima.nms_out_of_bounds_refuted"
   ],
   "note": "Isolation and the exact set of marked pixels are proved for unsigned images and for images without a mask; strictness fails on plateaus inside one tile; negative values break completeness and, with a mask, memory safety."
  },
  {
   "property": "C45",
   "status": "proved",
   "theorems": [
    "Litiv.Maxima.horizontal_exact",
    "Litiv.Maxima.vertical_exact",
    "Litiv.Maxima.diagonal_exact",
    "Litiv.Maxima.peaks_apart",
    "Litiv.Maxima.horizontal_apart",
    "Litiv.Maxima.vertical_apart",
    "Litiv.Maxima.diagonal_apart",
    "Litiv.Maxima.plateau_start_accepted"
   ],
   "note": "For step times half-window below 2^63; element access with wrapped-around size_t indices is taken as signed offsets."
  },
  {
   "property": "C46",
   "status": "partial",
   "theorems": [
    "Litiv.Filters.integral_box",
    "Litiv.Filters.integral_corners",
    "Litiv.Filters.integral_backends_agree",
    "Litiv.Filters.integral_masked_box",
    "Litiv.Filters.binaryIntegral_box",
    "Litiv.Filters.binaryIntegral_raw",
    "Litiv.Filters.integral_default_depth_refuted"
   ],
   "note": "Proved for CV_32S output, OpenCV and NEON, if the total is below 2^31; the default depth -1 always fails an assertion. CV_32F not modelled."
  },
  {
   "property": "C47",
   "status": "partial",
   "theorems": [
    "Litiv.Consensus.samples_observed",
    "Litiv.Consensus.apply_spec",
    "Litiv.Consensus.vibe1_matched",
    "Litiv.Consensus.vibe1_mask",
    "Litiv.Consensus.learns",
    "Litiv.Consensus.static_background",
    "Litiv.Consensus.vibe3_matched",
    "Litiv.Consensus.vibe3_mask_partial",
    "Litiv.Consensus.vibe3_mask_refuted"
   ],
   "note": "Everything proved for one channel. For three channels the histories are proved, and the mask when colours differ by at most 147 per channel; with larger differences the 16-bit accumulator wraps and the mask is wrong."
  },
  {
   "property": "C48",
   "status": "proved",
   "theorems": [
    "Litiv.BgUtils.tables",
    "Litiv.BgUtils.init_roi",
    "Litiv.BgUtils.init_default",
    "Litiv.BgUtils.setROI_init",
    "Litiv.BgUtils.roi_copy_refuted"
   ],
   "note": "Tables and retained ROI fully characterised; roi_copy_refuted records that a ROI copied from the algorithm is rejected by initialize."
  },
  {
   "property": "C49",
   "status": "proved",
   "theorems": [
    "Litiv.BgUtils.validateROI_spec",
    "Litiv.LBSP.validateROI_spec",
    "Litiv.LBSP.validateROI_small"
   ],
   "note": ""
  },
  {
   "property": "C50",
   "status": "proved",
   "theorems": [
    "Litiv.Seq.addDirSlash_spec",
    "Litiv.Seq.addDirSlash_idempotent",
    "Litiv.Seq.containsSub_iff",
    "Litiv.Seq.filterFilePaths_spec"
   ],
   "note": ""
  },
  {
   "property": "C51",
   "status": "proved",
   "theorems": [
    "Litiv.Shift.shift_rejects",
    "Litiv.Shift.shift_integer",
    "Litiv.Shift.shift_back",
    "Litiv.Shift.copy_accepts",
    "Litiv.Shift.copy_valid"
   ],
   "note": "OpenCV primitives (copyMakeBorder, views, copyTo) by their documented results; coordinates in unbounded integers."
  },
  {
   "property": "C52",
   "status": "partial",
   "theorems": [
    "Litiv.Simd.hsum8_spec",
    "Litiv.Simd.hsum32_spec",
    "Litiv.Simd.cmpZero_spec",
    "Litiv.Simd.cmpEq_spec",
    "Litiv.Simd.mult8_spec",
    "Litiv.Simd.mult32_spec",
    "Litiv.Simd.extract32_sse4",
    "Litiv.Simd.extract32_refuted",
    "Litiv.Simd.extract32_partial",
    "Litiv.Simd.hmin8_spec",
    "Litiv.Simd.hmax8_spec",
    "Litiv.Simd.hmax32_spec",
    "Litiv.Simd.store_8ui_spec",
    "Litiv.Simd.store_8ui_misaligned"
   ],
   "note": "Missing: lane extraction without SSE4.1, refuted by an operator precedence error."
  },
  {
   "property": "C53",
   "status": "partial",
   "theorems": [
    "Litiv.Lut.eval_floor",
    "Litiv.Lut.eval_nearest",
    "Litiv.Lut.eval_margin",
    "Litiv.Lut.eval_outside",
    "Litiv.Lut.eval_mid_odd",
    "Litiv.Lut.eval_mid_round_odd",
    "Litiv.Lut.eval_mid_round_refuted",
    "Litiv.Lut.eval_mid_even_refuted",
    "Litiv.Lut.assert_exact",
    "Litiv.Lut.noffset_agree",
    "Litiv.Lut.eval_rounded",
    "Litiv.Lut.double_relErr",
    "Litiv.Lut.eval_ieee",
    "Litiv.Lut.eval_ieee_refuted",
    "Litiv.Lut.init_accepts"
   ],
   "note": "Proved in exact arithmetic for lookups from the low end and, for odd bin counts, from the middle; with rounding, within one sample of the exact entry. Missing, each refuted: mid lookups with even bin counts, and the exact sample at the upper end under IEEE rounding."
  },
  {
   "property": "C54",
   "status": "partial",
   "theorems": [
    "Litiv.AutoBuffer.pushBackRef_spec_partial",
    "Litiv.AutoBuffer.pushBackRef_use_after_free",
    "Litiv.AutoBuffer.implicitMove_aliases",
    "Litiv.AutoBuffer.implicitMove_dangling_source"
   ],
   "note": "Self-insertion holds unless a heap block grows; same-type moves alias (refuted)."
  },
  {
   "property": "C55",
   "status": "partial",
   "theorems": [
    "Litiv.Bits.extendBits_spec",
    "Litiv.Bits.extendBits_not_max"
   ],
   "note": "Proved up to doubling the bit count; false beyond."
  },
  {
   "property": "C56",
   "status": "partial",
   "theorems": [
    "Litiv.MathSeq.interp1_domain",
    "Litiv.MathSeq.interp1_at_knot",
    "Litiv.MathSeq.interp1_spec_partial",
    "Litiv.MathSeq.interp1_second_half"
   ],
   "note": "True at knots and in the first half of each segment; false in the second half."
  },
  {
   "property": "C57",
   "status": "proved",
   "theorems": [
    "Litiv.MathSeq.linspace_incl",
    "Litiv.MathSeq.linspace_excl",
    "Litiv.MathSeq.linspace_small"
   ],
   "note": "n=1 returns b only."
  },
  {
   "property": "C58",
   "status": "proved",
   "theorems": [
    "Litiv.MathSeq.emd_metric",
    "Litiv.MathSeq.emd_unit_move"
   ],
   "note": ""
  },
  {
   "property": "C59",
   "status": "proved",
   "theorems": [
    "Litiv.MathSeq.cemd_optimal",
    "Litiv.MathSeq.cemd_rotate",
    "Litiv.MathSeq.cemd_zero"
   ],
   "note": ""
  },
  {
   "property": "C60",
   "status": "proved",
   "theorems": [
    "Litiv.Seq.unroll_spec",
    "Litiv.Seq.concat_spec"
   ],
   "note": ""
  },
  {
   "property": "C61",
   "status": "partial",
   "theorems": [
    "Litiv.Metrics.mcc_value_partial",
    "Litiv.Metrics.mcc_wrong_sign"
   ],
   "note": "Exact when FP*FN < 2^64; beyond, the 64-bit product wraps and the sign can be wrong (mcc_wrong_sign)."
  },
  {
   "property": "C62",
   "status": "proved",
   "theorems": [
    "Litiv.Metrics.stereo_accImage",
    "Litiv.Metrics.stereo_values",
    "Litiv.Metrics.percentBad_range",
    "Litiv.Metrics.stereo_metrics_ok",
    "Litiv.Metrics.stereo_order"
   ],
   "note": "Over the reals."
  },
  {
   "property": "C63",
   "status": "proved",
   "theorems": [
    "Litiv.Metrics.colored_mask_classes"
   ],
   "note": ""
  },
  {
   "property": "C64",
   "status": "proved",
   "theorems": [
    "Litiv.Groups.parse_leaves",
    "Litiv.Groups.parse_wf",
    "Litiv.Groups.parse_not_skipped"
   ],
   "note": ""
  },
  {
   "property": "C65",
   "status": "partial",
   "theorems": [
    "Litiv.Packets.first_session_partial",
    "Litiv.Packets.restart_fails"
   ],
   "note": "Only the first session works: later starts throw future_error (restart_fails)."
  },
  {
   "property": "C66",
   "status": "partial",
   "theorems": [
    "Litiv.Groups.create_ok_partial",
    "Litiv.Groups.create_skipped_group"
   ],
   "note": "Creation throws whenever a top-level group directory matches a skip token (create_skipped_group)."
  },
  {
   "property": "C67",
   "status": "proved",
   "theorems": [
    "Litiv.Packets.grayOut_spec",
    "Litiv.Packets.grayOut_other"
   ],
   "note": ""
  },
  {
   "property": "C68",
   "status": "proved",
   "theorems": [
    "Litiv.Precacher.failure_reported",
    "Litiv.Precacher.failure_recorded",
    "Litiv.Precacher.never_throws"
   ],
   "note": ""
  },
  {
   "property": "C69",
   "status": "proved",
   "theorems": [
    "Litiv.Writer.failures_reported",
    "Litiv.Writer.silent_stop"
   ],
   "note": ""
  },
  {
   "property": "C70",
   "status": "partial",
   "theorems": [
    "Litiv.LBSP.compute2_spec",
    "Litiv.LBSP.isDesc_unique",
    "Litiv.LBSP.compute2_reshape_partial",
    "Litiv.LBSP.compute2_stale_refuted",
    "Litiv.LBSP.reshape_rounding_refuted",
    "Litiv.LBSP.absThreshold_spec_partial",
    "Litiv.LBSP.absThreshold_refuted"
   ],
   "note": "Dense part proved; the keypoint forms agree for integer positions and zero maps, refuted otherwise; thresholds of 2^31 or more are refuted."
  },
  {
   "property": "C71",
   "status": "proved",
   "theorems": [
    "Litiv.LBSP.calcDistance_spec",
    "Litiv.LBSP.diffPixel_spec",
    "Litiv.LBSP.diffMerged_spec"
   ],
   "note": ""
  },
  {
   "property": "C72",
   "status": "proved",
   "theorems": [
    "Litiv.LBSP.glsl_agrees"
   ],
   "note": ""
  },
  {
   "property": "C73",
   "status": "partial",
   "theorems": [
    "Litiv.Thinning.lamLeeSuen_components_partial",
    "Litiv.Thinning.zhangSuen_components_refuted",
    "Litiv.Thinning.lamLeeSuen_components_refuted"
   ],
   "note": "Proved for Lam-Lee-Suen when the stray byte is the intended one; refuted for Zhang-Suen (2x2 squares vanish) and for Lam-Lee-Suen with a zero stray byte."
  },
  {
   "property": "C74",
   "status": "partial",
   "theorems": [
    "Litiv.Thinning.zhangSuen_thinned",
    "Litiv.Thinning.zhangSuen_pass_exact",
    "Litiv.Thinning.lamLeeSuen_thinned_partial",
    "Litiv.Thinning.lamLeeSuen_pixel_exact"
   ],
   "note": "Lam-Lee-Suen only for the intended stray byte; see C41 for the other builds."
  },
  {
   "property": "C75",
   "status": "proved",
   "theorems": [
    "Litiv.Filters.binaryConsensus_spec",
    "Litiv.Filters.binaryConsensus_default"
   ],
   "note": "With conversion to binary (the default), images below 2^31 pixels."
  },
  {
   "property": "C76",
   "status": "partial",
   "theorems": [
    "Litiv.Consensus.pbas_observed",
    "Litiv.Consensus.pbas_foreground_refuted",
    "Litiv.Consensus.pbasIndex_spec",
    "Litiv.Consensus.pbasIndex_refuted"
   ],
   "note": "Observed values and continuous images proved. Refuted: foreground values do enter the model through self-diffusion (the default), and input images with padded rows are accepted but index past the model. Floating-point feedback is an arbitrary parameter."
  },
  {
   "property": "C77",
   "status": "partial",
   "theorems": [
    "Litiv.Lobster.pixels_ok",
    "Litiv.Lobster.neighbours_are_lookup",
    "Litiv.Lobster.history",
    "Litiv.Lobster.history1",
    "Litiv.Lobster.frame_spec",
    "Litiv.Lobster.matched1",
    "Litiv.Lobster.matched3",
    "Litiv.Lobster.self_match1",
    "Litiv.Lobster.self_match3",
    "Litiv.Lobster.refresh_spec",
    "Litiv.Lobster.static_frames",
    "Litiv.Lobster.static_partial",
    "Litiv.Lobster.init_obs",
    "Litiv.Lobster.foreground_frame",
    "Litiv.Lobster.static_refuted"
   ],
   "note": "Everything proved but static scenes right after initialization, refuted: initial descriptors near the border of the retained ROI are computed against zeros. The median filter is an arbitrary function."
  },
  {
   "property": "C78",
   "status": "partial",
   "theorems": [
    "Litiv.BgUtils.validateWin_spec",
    "Litiv.BgUtils.validateMI_partial",
    "Litiv.BgUtils.validateMI_refuted"
   ],
   "note": "LSS and DASC proved; mutual information clears the last fitting row and column."
  },
  {
   "property": "C79",
   "status": "partial",
   "theorems": [
    "Litiv.Simd.aligned_layout",
    "Litiv.Simd.aligned_layout_refuted"
   ],
   "note": "Proved for powers of two, the only alignments used in the repository; the class accepts other values, for which it is refuted."
  },
  {
   "property": "C80",
   "status": "partial",
   "theorems": [
    "Litiv.Shift.shift_bilinear_partial",
    "Litiv.Shift.shift_fill_refuted"
   ],
   "note": "Exact arithmetic. Missing: the last column or row under a negative fractional shift, refuted (it fades to zero instead of the border)."
  },
  {
   "property": "C81",
   "status": "proved",
   "theorems": [
    "Litiv.Color.hsl_exact",
    "Litiv.Color.hsl_roundtrip",
    "Litiv.Color.hsl_roundtrip_exact"
   ],
   "note": "Exact rational arithmetic, with the error tolerance of the way back proved explicitly."
  },
  {
   "property": "C82",
   "status": "proved",
   "theorems": [
    "Litiv.Color.unique_colors",
    "Litiv.Color.unique_accepts",
    "Litiv.Color.unique_constant"
   ],
   "note": "std::shuffle by its contract (a permutation); the element at a linear index as a list; std::log2 and float arithmetic exact."
  },
  {
   "property": "C83",
   "status": "proved",
   "theorems": [
    "Litiv.Views.subMat_spec",
    "Litiv.Views.subMatAt_spec",
    "Litiv.Views.squeeze_spec",
    "Litiv.Views.squeeze_small",
    "Litiv.Views.concat_spec",
    "Litiv.Views.concat_rejects"
   ],
   "note": "cv::Mat headers, copyTo, reshape and resize by contract. A negative dimension index (unchecked in the code) counts as a failure."
  },
  {
   "property": "C84",
   "status": "partial",
   "theorems": [
    "Litiv.Views.isEqual_partial",
    "Litiv.Views.isEqual_refuted",
    "Litiv.Views.getBasicMat_partial",
    "Litiv.Views.getBasicMat_refuted",
    "Litiv.Views.isNearlyEqual_partial",
    "Litiv.Views.isNearlyEqual_refuted"
   ],
   "note": "Missing: non-continuous matrices for getBasicMat and isNearlyEqual (refuted), element types which do not divide the element size for isEqual (refuted)."
  },
  {
   "property": "C85",
   "status": "partial",
   "theorems": [
    "Litiv.MatSize.total_partial",
    "Litiv.MatSize.equal_partial",
    "Litiv.MatSize.equal_equivalence_partial",
    "Litiv.MatSize.equal_refuted",
    "Litiv.MatSize.cvtSizes_spec",
    "Litiv.MatSize.size_roundtrip",
    "Litiv.MatSize.transpose_twice",
    "Litiv.MatSize.equalMatSize_spec"
   ],
   "note": "Missing: element counts of 2^64 and more and comparisons between types which cannot represent the values, both refuted."
  },
  {
   "property": "C86",
   "status": "partial",
   "theorems": [
    "Litiv.SubPix.border_inside",
    "Litiv.SubPix.sample_bilinear_partial",
    "Litiv.SubPix.sample_modes_partial",
    "Litiv.SubPix.sample_whole",
    "Litiv.SubPix.sample_bounds_partial",
    "Litiv.SubPix.sample_refuted",
    "Litiv.SubPix.sampleVec_channels"
   ],
   "note": "Exact arithmetic. Missing: negative coordinates and the constant border mode, refuted."
  },
  {
   "property": "C87",
   "status": "partial",
   "theorems": [
    "Litiv.SubSense.ranges1_partial",
    "Litiv.SubSense.ranges3_partial",
    "Litiv.SubSense.small_images",
    "Litiv.SubSense.rate_clamped",
    "Litiv.SubSense.directions",
    "Litiv.SubSense.thresholds_mono",
    "Litiv.SubSense.thresholds_whole",
    "Litiv.SubSense.pixel_update",
    "Litiv.SubSense.cap_shift_refuted",
    "Litiv.SubSense.short_average_refuted",
    "Litiv.SubSense.dist_shift_refuted"
   ],
   "note": "Float rounding included (single precision, unbounded exponent). Missing: two shifts by too many bits and averaging windows below four frames, all refuted (the second shift for one pixel's adaptation, not for a whole history)."
  },
  {
   "property": "C88",
   "status": "partial",
   "theorems": [
    "Litiv.SubSense.samples_shown",
    "Litiv.SubSense.samples_shown1",
    "Litiv.SubSense.frame_effect",
    "Litiv.SubSense.matched1",
    "Litiv.SubSense.matched3",
    "Litiv.SubSense.self_match1",
    "Litiv.SubSense.blink_rule",
    "Litiv.SubSense.last_distance_refuted",
    "Litiv.SubSense.init_descriptor_refuted"
   ],
   "note": "Samples are traced to what initialization recorded; that record has descriptors never computed from the image (refuted part). Runs that end in a failure are not covered."
  },
  {
   "property": "C89",
   "status": "partial",
   "theorems": [
    "Litiv.SubSense.caps_and_table",
    "Litiv.SubSense.table_step",
    "Litiv.SubSense.reset_rule",
    "Litiv.SubSense.reset_spacing",
    "Litiv.SubSense.caps_defined",
    "Litiv.SubSense.cap_shift_refuted"
   ],
   "note": "Missing: colour difference ratios of 64 and more, for which the caps are undefined."
  },
  {
   "property": "C90",
   "status": "partial",
   "theorems": [
    "Litiv.Pbas.initial_values",
    "Litiv.Pbas.ranges",
    "Litiv.Pbas.samples_observed",
    "Litiv.Pbas.pixel_update",
    "Litiv.Pbas.mean_update",
    "Litiv.Pbas.directions",
    "Litiv.Pbas.self_match",
    "Litiv.Pbas.uniform_scene",
    "Litiv.Pbas.quiet_scene1",
    "Litiv.Pbas.blind",
    "Litiv.Pbas.refines",
    "Litiv.Pbas.kind1_good",
    "Litiv.Pbas.kind3_good",
    "Litiv.Pbas.distances1",
    "Litiv.Pbas.distances3_partial",
    "Litiv.Pbas.rate_direction_refuted",
    "Litiv.Pbas.far_colour_refuted"
   ],
   "note": "Float rounding included (single precision, unbounded exponent). Missing: rates move the wrong way when the initial rate is above 200 or below 2 (refuted); three-channel distances beyond 16 bits (refuted). The quiet-scene bound is stated for one channel. At most 2^24 samples."
  },
  {
   "property": "C91",
   "status": "partial",
   "theorems": [
    "Litiv.EdgeLBSP.pyramid_partial",
    "Litiv.EdgeLBSP.pyramid_small_refuted"
   ],
   "note": "Missing: levels of one row, or of one column and more than four rows, for which the size_t subtraction wraps around (refuted, exactly these)."
  },
  {
   "property": "C92",
   "status": "partial",
   "theorems": [
    "Litiv.EdgeLBSP.edges_big_endian",
    "Litiv.EdgeLBSP.edges_little_endian_partial",
    "Litiv.EdgeLBSP.border_clear",
    "Litiv.EdgeLBSP.axis_refuted"
   ],
   "note": "Missing: the axis of the gradient where words are stored least significant byte first (refuted); the images excluded in C91."
  },
  {
   "property": "C93",
   "status": "proved",
   "theorems": [
    "Litiv.EdgeLBSP.raise_threshold",
    "Litiv.EdgeLBSP.confidence"
   ],
   "note": "For images accepted by C91; optional normalization not modelled."
  },
  {
   "property": "C94",
   "status": "partial",
   "theorems": [
    "Litiv.MI.hist_frequencies",
    "Litiv.MI.hist_states",
    "Litiv.MI.hist_marginals",
    "Litiv.MI.hist_fresh",
    "Litiv.MI.hist_sizes_refused",
    "Litiv.MI.hist_spread_refuted"
   ],
   "note": "Exact arithmetic. Missing: int inputs whose spread does not fit in an int (refuted)."
  },
  {
   "property": "C95",
   "status": "partial",
   "theorems": [
    "Litiv.MI.mi_formula",
    "Litiv.MI.mi_bounds",
    "Litiv.MI.mi_symm",
    "Litiv.MI.mi_self",
    "Litiv.MI.mi_zero_iff",
    "Litiv.MI.mi_relabel",
    "Litiv.MI.mi_perm",
    "Litiv.MI.mi_fast_refuted",
    "Litiv.MI.mi_fast_wrong",
    "Litiv.MI.mi_stale_refuted"
   ],
   "note": "Exact real arithmetic. Missing: the fast mode, which returns zero with a fresh object and may return a negative score with a reused one (refuted)."
  },
  {
   "property": "C96",
   "status": "proved",
   "theorems": [
    "Litiv.Affinity.image_affinity",
    "Litiv.Affinity.image_affinity_range",
    "Litiv.Affinity.image_affinity_equal"
   ],
   "note": "Exact real arithmetic; iterations are atomic."
  },
  {
   "property": "C97",
   "status": "partial",
   "theorems": [
    "Litiv.Affinity.desc_affinity",
    "Litiv.Affinity.desc_affinity_range",
    "Litiv.Affinity.unit_distance",
    "Litiv.Affinity.desc_affinity_roi_partial",
    "Litiv.Affinity.roi_refuted"
   ],
   "note": "Exact real arithmetic. Missing: a pixel outside of the first region stays at -1 only for patches of one pixel (refuted for larger ones)."
  },
  {
   "property": "C98",
   "status": "partial",
   "theorems": [
    "Litiv.LSS.mask_any",
    "Litiv.LSS.mask_proper",
    "Litiv.LSS.mask_defined",
    "Litiv.LSS.mask_defined_refuted",
    "Litiv.LSS.mask_bins_refuted",
    "Litiv.LSS.mask_disc",
    "Litiv.LSS.lienhart_geometry",
    "Litiv.LSS.chatfield_geometry",
    "Litiv.LSS.mask_one_ring_refuted"
   ],
   "note": "mask_any holds for any rounding; the disc for exact arithmetic. Missing (refuted): Chatfield's mask when the number of angular bins does not divide 360 or exceeds it, or the size is 3; Lienhart's with one radial bin."
  },
  {
   "property": "C99",
   "status": "proved",
   "theorems": [
    "Litiv.LSS.dense_values",
    "Litiv.LSS.bin_range",
    "Litiv.LSS.dense_unit",
    "Litiv.LSS.dense_shift",
    "Litiv.LSS.bin_local",
    "Litiv.LSS.distance_bounds"
   ],
   "note": "Exact arithmetic; mask of Lienhart, or of Chatfield with a number of angular bins that divides 360."
  }
 ]
}