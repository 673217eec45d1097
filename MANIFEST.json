{
 "claims": [
  {
   "property": "C01",
   "status": "proved",
   "theorems": [
    "Verif.Codes.c01_roundtrip",
    "Verif.Codes.c01_symmetric",
    "Verif.Codes.c01_reencode"
   ],
   "note": "All antenna pairs 0..2046, both Python directions."
  },
  {
   "property": "C02",
   "status": "proved",
   "theorems": [
    "Verif.Codes.c02_injective",
    "Verif.Codes.c02_limit_sharp",
    "Verif.Codes.c02_collision"
   ],
   "note": "Injective on unordered pairs up to 2046; limit shown sharp and the collision at 2047 exhibited."
  },
  {
   "property": "C03",
   "status": "proved",
   "theorems": [
    "Verif.Codes.c03_file_roundtrip",
    "Verif.Codes.c03_agrees_with_python",
    "Verif.Codes.c03_select_decoder_agrees",
    "Verif.Codes.c03_file_injective",
    "Verif.Codes.c03_float_limit"
   ],
   "note": "C macros, float32 storage and the select decoder agree with Python for all antennas 0..2046."
  },
  {
   "property": "C04",
   "status": "proved",
   "theorems": [
    "Verif.Codes.c04_pol_tables_inverse",
    "Verif.Codes.c04_blp_roundtrip",
    "Verif.Codes.c04_pol_codes_packable"
   ],
   "note": "Finite polarisation tables checked completely; ijp2blp/blp2ijp round trip for all values."
  },
  {
   "property": "C05",
   "status": "proved",
   "theorems": [
    "Verif.Scripting.c05_chan_list",
    "Verif.Scripting.c05_all",
    "Verif.Scripting.c05_too_many_fields_rejected",
    "Verif.Scripting.c05_negative_stride_misses_end",
    "Verif.Scripting.c05_zero_stride_raises"
   ],
   "note": "Every channel string of the documented grammar with positive stride; negative stride shown to miss its end point (c05_negative_stride_misses_end)."
  },
  {
   "property": "C06",
   "status": "partial",
   "theorems": [
    "Verif.Scripting.c06_parse_meaning",
    "Verif.Scripting.c06_antenna_list",
    "Verif.Scripting.c06_unparsable_raises",
    "Verif.Scripting.c06_feed_order_violated",
    "Verif.Scripting.c06_feed_order_ascending",
    "Verif.Scripting.c06_lone_group_misread"
   ],
   "note": "parse_ants denotes the stated meaning for every string of the grammar (regex modelled as a recogniser); c06_feed_order_violated and c06_lone_group_misread show the documented meaning of feed suffixes and lone groups is not met."
  },
  {
   "property": "C07",
   "status": "partial",
   "theorems": [
    "Verif.Miriad.c07_select_semantics",
    "Verif.Miriad.c07_uv_selector",
    "Verif.Miriad.c07_antenna_list_end_to_end",
    "Verif.Miriad.c07_descending_record_violated",
    "Verif.Miriad.c07_all_ignores_pol_violated",
    "Verif.Miriad.c07_exclude_with_feed_violated",
    "Verif.Miriad.c07_auto_adds_violated",
    "Verif.Miriad.c07_dazim_ignored_violated"
   ],
   "note": "Every select call sequence (dazim/delev excluded) and every uv_selector call, for records with ascending antennas. The *_violated theorems show the inputs where the code departs from the request: descending records, 'all' with a polarisation, exclusion with a feed, 'auto', dazim."
  },
  {
   "property": "C08",
   "status": "proved",
   "theorems": [
    "Verif.Scripting.c08_meaning",
    "Verif.Scripting.c08_mismatch_rejected",
    "Verif.Scripting.c08_unrelated_item",
    "Verif.Scripting.c08_trailing_text_ignored"
   ],
   "note": "Every item and dictionary: broadcasting, mismatch rejection, later item wins. c08_trailing_text_ignored records that text after a complete item is silently dropped."
  },
  {
   "property": "C09",
   "status": "partial",
   "theorems": [
    "Verif.Fit.c09_roundtrip_partial",
    "Verif.Fit.c09_vector_complete",
    "Verif.Fit.c09_singleton_violated",
    "Verif.Fit.c09_empty_violated"
   ],
   "note": "Round trip for all dictionaries whose lists have at least two elements; c09_singleton_violated and c09_empty_violated show one-element and empty lists do not survive."
  },
  {
   "property": "C10",
   "status": "proved",
   "theorems": [
    "Verif.Fit.c10_slices_tile",
    "Verif.Fit.c10_noninterference"
   ],
   "note": "Slices tile the vector and a change of one element reaches exactly one parameter element."
  },
  {
   "property": "C11",
   "status": "partial",
   "theorems": [
    "Verif.Fit.c11_antenna_get_set",
    "Verif.Fit.c11_delay_get_set",
    "Verif.Fit.c11_delay_overridden_violated",
    "Verif.Fit.c11_pol_set_get",
    "Verif.Fit.c11_pol_bp_i_violated",
    "Verif.Fit.c11_src_set_get",
    "Verif.Fit.c11_special_set_get",
    "Verif.Fit.c11_src_get_set",
    "Verif.Fit.c11_mfreq_violated",
    "Verif.Fit.c11_catalog_set_get",
    "Verif.Fit.c11_beam_set_get",
    "Verif.Fit.c11_alm_reversed",
    "Verif.Fit.c11_antenna_set_get"
   ],
   "note": "set(get) is the identity for sources, catalogs, antennas, flat/Gaussian/polynomial beams, dual-pol antennas, and get-after-set laws; *_violated/_reversed theorems show mfreq, BeamAlm order, pol bp_i and dly+phsoff where it fails."
  },
  {
   "property": "C12",
   "status": "partial",
   "theorems": [
    "Verif.Fit.c12_isolated_partial",
    "Verif.Fit.c12_isolated_history_partial",
    "Verif.Fit.c12_default_phsoff_violated",
    "Verif.Fit.c12_catalog_isolated"
   ],
   "note": "Catalogs fully; antennas over any history as long as they do not share list/beam objects. c12_default_phsoff_violated: antennas built with the default phsoff share one list."
  },
  {
   "property": "C13",
   "status": "proved",
   "theorems": [
    "Verif.Phs.c13_members",
    "Verif.Phs.c13_nodup",
    "Verif.Phs.c13_counts",
    "Verif.Phs.c13_decode"
   ],
   "note": "All array sizes and switches; decoding the numbers gives back the pairs (sizes up to 2047)."
  },
  {
   "property": "C14",
   "status": "proved",
   "theorems": [
    "Verif.Phs.c14_antisymmetric",
    "Verif.Phs.c14_zero",
    "Verif.Phs.c14_closure",
    "Verif.Phs.c14_length",
    "Verif.Phs.c14_w_is_delay",
    "Verif.Phs.c14_equatorial_frame_violated"
   ],
   "note": "All frames and sources that get_baseline accepts; w is shown to be the geometric delay towards the source. c14_equatorial_frame_violated: the 'e' frame rotates the baseline the wrong way relative to the source frame (not part of the statement, recorded as a disagreement)."
  },
  {
   "property": "C15",
   "status": "proved",
   "theorems": [
    "Verif.Phs.c15_unit_modulus",
    "Verif.Phs.c15_inverse",
    "Verif.Phs.c15_total",
    "Verif.Phs.c15_conjugate",
    "Verif.Phs.c15_auto",
    "Verif.Phs.c15_below_horizon"
   ],
   "note": "Exact arithmetic; ionospheric refraction included; data as long as the channel list (or one channel)."
  },
  {
   "property": "C16",
   "status": "proved",
   "theorems": [
    "Verif.Phs.c16_closure"
   ],
   "note": "All triangles and antenna-based offsets, with refraction, unresolved."
  },
  {
   "property": "C17",
   "status": "partial",
   "theorems": [
    "Verif.Amp.c17_hermitian",
    "Verif.Amp.c17_additive_partial",
    "Verif.Amp.c17_order",
    "Verif.Amp.c17_flux",
    "Verif.Amp.c17_amplitude",
    "Verif.Amp.c17_auto",
    "Verif.Amp.c17_below_horizon",
    "Verif.Amp.c17_additive_violated"
   ],
   "note": "Stated for the answers of sim after any history of calls without set_ephemtime; the Bessel function of resolved sources is an arbitrary function. With one channel sim does not answer for several sources that are up (c17_additive_violated), so additivity assumes that it answers."
  },
  {
   "property": "C18",
   "status": "partial",
   "theorems": [
    "Verif.Amp.c18_never_stale",
    "Verif.Amp.c18_answers_partial",
    "Verif.Amp.c18_raises",
    "Verif.Amp.c18_repeatable",
    "Verif.Amp.c18_one_channel_violated",
    "Verif.Amp.c18_ephemtime_violated"
   ],
   "note": "All histories of set_jultime, set_active_pol, sim_cache, sim. c18_ephemtime_violated: moving the clock with set_ephemtime leaves the cache in place and sim answers for the old sky. c18_one_channel_violated: with one active channel and several sources up sim always raises, so c18_answers_partial needs another case. Parameter changes between sim_cache and sim are the subject of C69."
  },
  {
   "property": "C19",
   "status": "proved",
   "theorems": [
    "Verif.Coord.c19_rodrigues",
    "Verif.Coord.c19_rotation",
    "Verif.Coord.c19_axis",
    "Verif.Coord.c19_additive",
    "Verif.Coord.c19_inverse",
    "Verif.Coord.c19_unit_needed",
    "Verif.Coord.c19_docstring_scaling_violated"
   ],
   "note": "Exact real arithmetic; docstring remark about scaling by |vec| shown false."
  },
  {
   "property": "C20",
   "status": "proved",
   "theorems": [
    "Verif.Coord.c20_rotation",
    "Verif.Coord.c20_inverse",
    "Verif.Coord.c20_directions",
    "Verif.Coord.c20_isometry"
   ],
   "note": "Exact real arithmetic."
  },
  {
   "property": "C21",
   "status": "proved",
   "theorems": [
    "Verif.Coord.c21_unit",
    "Verif.Coord.c21_thphi_of_vec",
    "Verif.Coord.c21_vec_of_thphi",
    "Verif.Coord.c21_poles",
    "Verif.Coord.c21_ranges",
    "Verif.Coord.c21_radec_of_vec",
    "Verif.Coord.c21_vec_of_radec",
    "Verif.Coord.c21_azalt_of_vec",
    "Verif.Coord.c21_vec_of_azalt",
    "Verif.Coord.c21_conventions",
    "Verif.Coord.c21_zenith"
   ],
   "note": "Exact real arithmetic; arctan2 as Complex.arg."
  },
  {
   "property": "C22",
   "status": "proved",
   "theorems": [
    "Verif.Img.c22_total",
    "Verif.Img.c22_element",
    "Verif.Img.c22_permutation",
    "Verif.Img.c22_compose",
    "Verif.Img.c22_undo",
    "Verif.Img.c22_moves",
    "Verif.Img.c22_docstring_violated"
   ],
   "note": "All shapes and all integer centres, axis by axis as the code does. c22_docstring_violated: the docstring's direction (origin moved to c) is the opposite of the code's."
  },
  {
   "property": "C23",
   "status": "proved",
   "theorems": [
    "Verif.Img.Wrap.c23_words_kept",
    "Verif.Img.Wrap.c23_no_break",
    "Verif.Img.Wrap.c23_letters",
    "Verif.Img.Wrap.c23_greedy",
    "Verif.Img.Wrap.c23_join",
    "Verif.Img.Wrap.c23_narrow_violated"
   ],
   "note": "All texts and all widths leaving room for at least one character (the hypothesis of every theorem); c23_narrow_violated shows that with less room the text is dropped or the call raises."
  },
  {
   "property": "C24",
   "status": "proved",
   "theorems": [
    "Verif.Img.c24_completion",
    "Verif.Img.c24_symmetric",
    "Verif.Img.c24_real_image",
    "Verif.Img.c24_new"
   ],
   "note": "Completion lists, symmetry of the gridded matrices over any number of puts, real inverse DFT. FFT is taken as the exact inverse DFT."
  },
  {
   "property": "C25",
   "status": "proved",
   "theorems": [
    "Verif.Img.c25_partition",
    "Verif.Img.c25_loops_forever",
    "Verif.Img.c25_put_total",
    "Verif.Img.c25_get_order",
    "Verif.Img.c25_single_violated"
   ],
   "note": "All sample sets, any order argsort may produce, wres > 0; wres <= 0 is shown never to end, and c25_single_violated shows a one-sample get raises. The convolution kernel is a parameter."
  },
  {
   "property": "C26",
   "status": "proved",
   "theorems": [
    "Verif.Img.c26_accumulates",
    "Verif.Img.c26_order",
    "Verif.Img.c26_raises_iff",
    "Verif.Img.c26_long_index_violated",
    "Verif.Img.c26_contiguous_wf"
   ],
   "note": "One-, two- or more-dimensional contiguous arrays (and any strides with distinct addresses) and indices that fit in 32 bits; c26_long_index_violated shows larger 64-bit indices are truncated instead of rejected."
  },
  {
   "property": "C27",
   "status": "partial",
   "theorems": [
    "Verif.Img.c27_rejected_unchanged_partial",
    "Verif.Img.c27_accepted_only",
    "Verif.Img.c27_bad_index_violated",
    "Verif.Img.c27_bad_index_effect"
   ],
   "note": "Holds for rejections by type/rank/shape checks and when the first index is the bad one; c27_bad_index_violated: samples before the first bad index have already been added."
  },
  {
   "property": "C28",
   "status": "partial",
   "theorems": [
    "Verif.Img.c28_square_partial",
    "Verif.Img.c28_gaussian_weights",
    "Verif.Img.c28_in_bounds_partial",
    "Verif.Img.c28_tall_violated",
    "Verif.Img.c28_wide_violated"
   ],
   "note": "Square matrices fully; c28_tall_violated (out of bounds) and c28_wide_violated (wrong cell): the row stride used is the number of rows."
  },
  {
   "property": "C29",
   "status": "proved",
   "theorems": [
    "Verif.Img.c29_weighted_mean",
    "Verif.Img.c29_constant",
    "Verif.Img.c29_between",
    "Verif.Img.c29_linear",
    "Verif.Img.c29_initial_content"
   ],
   "note": "Square matrices, output array initially zero (as Img.get passes it); c29_initial_content shows what other initial content does."
  },
  {
   "property": "C30",
   "status": "proved",
   "theorems": [
    "Verif.Sky.c30_assign",
    "Verif.Sky.c30_raises_iff",
    "Verif.Sky.c30_readback",
    "Verif.Sky.c30_order"
   ],
   "note": "Pixel numbers as C ints, maps below 2^31 pixels; coordinates are translated to pixel numbers by healpy before."
  },
  {
   "property": "C31",
   "status": "partial",
   "theorems": [
    "Verif.Sky.c31_change_scheme",
    "Verif.Sky.c31_twice",
    "Verif.Sky.c31_from_hpm_partial",
    "Verif.Sky.c31_from_hpm_mislabelled",
    "Verif.Sky.c31_from_hpm_violated"
   ],
   "note": "change_scheme fully proved (value of every sky pixel, twice is identity). from_hpm between different orderings labels the data with the wrong ordering: c31_from_hpm_mislabelled says exactly what comes out, c31_from_hpm_violated gives the counterexample; healpy's nest/ring conversion is a parameter assumed to be a bijection."
  },
  {
   "property": "C32",
   "status": "proved",
   "theorems": [
    "Verif.Sky.c32_in_range",
    "Verif.Sky.c32_injective",
    "Verif.Sky.c32_surjective",
    "Verif.Sky.c32_set_get",
    "Verif.Sky.c32_lm_indices",
    "Verif.Sky.c32_new",
    "Verif.Sky.c32_alias"
   ],
   "note": "Index formulas of healpy.Alm (external) with exact square root; pairs with l<m alias other coefficients (c32_alias)."
  },
  {
   "property": "C33",
   "status": "partial",
   "theorems": [
    "Verif.Sky.c33_local_shuffle",
    "Verif.Sky.c33_bit_reverse_order_partial",
    "Verif.Sky.c33_facets_partial",
    "Verif.Sky.c33_raises_violated"
   ],
   "note": "With numpy >= 1.10 the order cannot be computed for N >= 2 (c33_raises_violated). For numpy that casts in place the order is a permutation for every N; _local_shuffle fully proved for arbitrary shuffles."
  },
  {
   "property": "C34",
   "status": "partial",
   "theorems": [
    "Verif.Sky.c34_add_partial",
    "Verif.Sky.c34_weighted_mean_partial",
    "Verif.Sky.c34_order_partial",
    "Verif.Sky.c34_add_accepts",
    "Verif.Sky.c34_indices_partial",
    "Verif.Sky.c34_duplicates_violated"
   ],
   "note": "Holds when no call names a pixel twice; c34_duplicates_violated otherwise. Exact arithmetic; no broadcasting of scalars."
  },
  {
   "property": "C35",
   "status": "partial",
   "theorems": [
    "Verif.Sky.c35_reset_partial",
    "Verif.Sky.c35_other_weight",
    "Verif.Sky.c35_violated"
   ],
   "note": "Holds for the default weight 1; for other weights the reported values are divided by the weight (c35_other_weight, c35_violated)."
  },
  {
   "property": "C36",
   "status": "proved",
   "theorems": [
    "Verif.Deconv.c36_conserves",
    "Verif.Deconv.c36_image",
    "Verif.Deconv.c36_1d",
    "Verif.Deconv.c36_2d",
    "Verif.Deconv.c36_complex_arithmetic"
   ],
   "note": "Exact arithmetic over an ordered field (real) or the complex numbers; circular indices; all four exits, 1-D and 2-D loops, integer stand-in for the C int maxiter. NaN input and kernels that vanish inside the area are outside the model."
  },
  {
   "property": "C37",
   "status": "proved",
   "theorems": [
    "Verif.Deconv.c37_area_only"
   ],
   "note": "As C36."
  },
  {
   "property": "C38",
   "status": "partial",
   "theorems": [
    "Verif.Deconv.c38_stop_if_div",
    "Verif.Deconv.c38_not_worse",
    "Verif.Deconv.c38_status_partial",
    "Verif.Deconv.c38_status_violated",
    "Verif.Deconv.c38_calibration"
   ],
   "note": "Score never rises, undo is exact, at most maxiter components, status truthful for maxiter >= 0; a negative maxiter is reported as divergence (c38_status_violated)."
  },
  {
   "property": "C39",
   "status": "partial",
   "theorems": [
    "Verif.Deconv.c39_stop_if_div",
    "Verif.Deconv.c39_violated",
    "Verif.Deconv.c39_terminates_partial",
    "Verif.Deconv.c39_monotone_partial"
   ],
   "note": "Always ends with stop_if_div; without it, ends if the scores reachable form a finite set or decrease by the tolerance; an image with zero residual never ends (c39_violated)."
  },
  {
   "property": "C40",
   "status": "partial",
   "theorems": [
    "Verif.Deconv.Fit.c40_no_worse",
    "Verif.Deconv.Fit.c40_bounds",
    "Verif.Deconv.Fit.c40_zero_iterations_violated"
   ],
   "note": "Proved for at least one iteration, for every sequence of random draws; maxiter=0 raises NameError (c40_zero_iterations_violated)."
  },
  {
   "property": "C41",
   "status": "partial",
   "theorems": [
    "Verif.Dsp.c41_symmetric",
    "Verif.Dsp.c41_parzen_periodic",
    "Verif.Dsp.c41_parzen_not_symmetric",
    "Verif.Dsp.c41_none_violated",
    "Verif.Dsp.c41_bounded",
    "Verif.Dsp.c41_peak"
   ],
   "note": "Exact reals. All windows except 'none' (a scalar is returned) and 'parzen' (symmetric in the periodic convention only)."
  },
  {
   "property": "C42",
   "status": "proved",
   "theorems": [
    "Verif.Mir.c42_32",
    "Verif.Mir.c42_32_back",
    "Verif.Mir.c42_64",
    "Verif.Mir.c42_64_back",
    "Verif.Mir.c42_16",
    "Verif.Mir.c42_16_truncates",
    "Verif.Mir.c42_16_back",
    "Verif.Mir.c42_32_big_endian",
    "Verif.Mir.c42_64_big_endian",
    "Verif.Mir.c42_16_big_endian"
   ],
   "note": "pack.c byte by byte: 16, 32 and 64 bit conversions round trip in both directions for every word, the disc bytes are the big-endian digits; c42_16_truncates shows values outside 16 bits are silently reduced modulo 2^16."
  },
  {
   "property": "C43",
   "status": "proved",
   "theorems": [
    "Verif.Mir.Mask.c43_last_written",
    "Verif.Mir.Mask.c43_readable",
    "Verif.Mir.Mask.c43_on_disk"
   ],
   "note": "maskio.c word by word (31 flags per integer, 128-integer window, flush and fill, loops over windows), in flags and runs format, over any history of writes, reads, flushes and reopening: every flag written reads back as last written, whatever was written around it, and the bytes on disc after a flush hold them. The history must have its writes start no further than the end of what was written before (gaps hold whatever the buffer held), and a file that holds only its tag cannot be reopened."
  },
  {
   "property": "C44",
   "status": "proved",
   "theorems": [
    "Verif.Mir.Mask.c44_read",
    "Verif.Mir.Mask.c44_write",
    "Verif.Mir.Mask.c44_unique"
   ],
   "note": "runs read are exactly the maximal runs of the flags read, in any state of the file and with the same errors; writing ordered runs changes the file exactly as writing the flags they stand for; maximal runs are unique."
  },
  {
   "property": "C45",
   "status": "partial",
   "theorems": [
    "Verif.Mir.Hio.c45_last_written",
    "Verif.Mir.Hio.c45_end_of_file",
    "Verif.Mir.Hio.c45_on_disk",
    "Verif.Mir.Hio.c45_in_memory",
    "Verif.Mir.Hio.c45_small_gap_misplaced",
    "Verif.Mir.Hio.c45_split_element_lost",
    "Verif.Mir.Hio.c45_empty_write_erases",
    "Verif.Mir.Hio.c45_far_write_erases",
    "Verif.Mir.Hio.c45_mixed_sizes"
   ],
   "note": "Proved for every history of reads, writes and reopenings of an item in which offsets and lengths share an alignment of 1, 2, 4 or 8 bytes, or element sizes mix while each write starts where the data end or at the next multiple of eight (c45_mixed_sizes); nothing lies beyond 2^31: no operation fails, every read returns the bytes written last, and closing leaves them on disk (c45_on_disk) or in the buffer that goes to the header file (c45_in_memory). The unrestricted statement is false: c45_small_gap_misplaced, c45_split_element_lost, c45_empty_write_erases and c45_far_write_erases show histories on which the code misplaces, withholds or loses data. Text I/O (hreada/hwritea) is not part of this model."
  },
  {
   "property": "C46",
   "status": "proved",
   "theorems": [
    "Verif.Mir.Hio.c46_survives",
    "Verif.Mir.Hio.c46_empty_item_lost"
   ],
   "note": "c46_survives: after any history of sessions (write and append), deletions, flushes and close/reopen of a data set, every item reads back as the flat file it should be and deleted items are gone; includes the item history, which always has a file, items that move from the header file to a file of their own and files shadowed by small items. Items are non-empty when written: c46_empty_item_lost shows that one that is never written is not kept. The item limit (1024 in all open data sets) is modelled as an explicit failure."
  },
  {
   "property": "C47",
   "status": "partial",
   "theorems": [
    "Verif.Mir.Uv.c47_variables",
    "Verif.Mir.Uv.c47_end",
    "Verif.Mir.Uv.c47_rewind",
    "Verif.Mir.Uv.c47_updated",
    "Verif.Mir.Uv.c47_rewind_stale",
    "Verif.Mir.Uv.c47_many_variables",
    "Verif.Mir.Uv.c47_python",
    "Verif.Mir.Uv.c47_string_grows",
    "Verif.Mir.Uv.c47_int_array",
    "Verif.Mir.Uv.c47_short_array",
    "Verif.Mir.Uv.c47_complex"
   ],
   "note": "The record stream of uvio.c (uvputvr_c, uvnext_c, uv_scan, uvgetvr_c, uvprobvr_c, uvrewind_c) is modelled over the bytes of the item visdata; c47_variables, c47_end, c47_rewind, c47_updated hold for all histories with at most 128 variables, values below 2 GiB and 16-bit numbers that fit; c47_python carries this to uv[name]=v / uv[name] for strings, integer numbers, and single and double precision numbers and arrays. Partial because the full statement is false: c47_rewind_stale, c47_many_variables, c47_string_grows, c47_int_array, c47_short_array, c47_complex are the negations, each with a witness."
  },
  {
   "property": "C48",
   "status": "partial",
   "theorems": [
    "Verif.Mir.Uv.c48_records",
    "Verif.Mir.Uv.c48_rewind",
    "Verif.Mir.Uv.c48_first_time_lost",
    "Verif.Mir.Uv.c48_preamble_lost"
   ],
   "note": "uvwrite_c, the change cache of the preamble, the correlation record, the flag file and uvread_c (plain reading, no selection) are modelled on top of the record stream of C47 and the flag file of C43. c48_records: everything written is read back in order (preamble, data, flags) and then the end of the file is reported; c48_rewind: again after a rewind from any place. Floating point comparisons are kept abstract (FpLaws). Partial because the full statement is false: hypotheses exclude first visibilities with time = w+1000 or baseline = time+1000 (c48_first_time_lost) and a last assignment of a preamble variable that disagrees with the preamble written next (c48_preamble_lost); at most 128 variables."
  },
  {
   "property": "C49",
   "status": "proved",
   "theorems": [
    "Verif.Mir.Scale.c49_length",
    "Verif.Mir.Scale.c49_fits",
    "Verif.Mir.Scale.c49_error",
    "Verif.Mir.Scale.c49_single",
    "Verif.Mir.Scale.c49_exact",
    "Verif.Mir.Scale.c49_sign",
    "Verif.Mir.Scale.c49_largest",
    "Verif.Mir.Scale.c49_copy",
    "Verif.Mir.Scale.c49_step_lost",
    "Verif.Mir.Scale.c49_copy_drifts"
   ],
   "note": "Scaling of uvwrite_c and unscaling of uvread_line over the rationals with a rounding after every operation: c49_fits (no overflow for any relative error up to 2^-17), c49_error/c49_single (one step plus rounding, 1.008 steps in single precision), c49_exact (less than one step, towards zero), c49_sign (zeros stay zero), c49_largest, c49_copy (idempotent). In single precision the bound of exactly one step is false (c49_step_lost) and copies can drift (c49_copy_drifts). Exponent range, infinities and NaN are not modelled."
  },
  {
   "property": "C50",
   "status": "proved",
   "theorems": [
    "Verif.Mir.Decimate.c50_history",
    "Verif.Mir.Decimate.c50_all",
    "Verif.Mir.Decimate.c50_rewind",
    "Verif.Mir.Decimate.c50_phases",
    "Verif.Mir.Decimate.c50_first_time",
    "Verif.Mir.Decimate.c50_zero"
   ],
   "note": "c50_history: every read in any sequence of reads, rewinds and selections returns the next wanted record or the end of the file; c50_all/c50_rewind: the records of all reads are exactly the filter of the file; c50_phases: the phases partition the records. Integrations are maximal runs of records with equal times (of the records that pass the other selections). Hypotheses: first time is not -1 (c50_first_time) and the decimation is not 0 (c50_zero: the process faults)."
  },
  {
   "property": "C51",
   "status": "partial",
   "theorems": [
    "Verif.Mir.Uv.c51_copy",
    "Verif.Mir.Uv.c51_late_variable",
    "Verif.Mir.Uv.c51_int_array",
    "Verif.Mir.Uv.c51_fewer_channels",
    "Verif.Mir.Uv.c51_time_changed",
    "Verif.Mir.Uv.c51_exclude_again",
    "Verif.Mir.Uv.c51_echo",
    "Verif.Mir.Uv.c51_lossless",
    "Verif.Mir.Head.c51_items",
    "Verif.Mir.Head.c51_written",
    "Verif.Mir.Head.c51_history",
    "Verif.Mir.Head.c51_no_history",
    "Verif.Mir.Uv.c51_exclude",
    "Verif.Mir.Uv.c51_override",
    "Verif.Mir.Uv.c51_whole"
   ],
   "note": "UV.__init__, init_from_uv (items, variables, override, exclude), pipe (records and history), uvtrack_c and uvcopyvr_c are modelled on top of C47/C48/C53. c51_copy: every source that meets Source is copied by init_from_uv+pipe, for any mfunc that keeps the preamble: the copy has exactly the records mfunc returned, then the end of the file, and with each record every copied variable has its value in the source. c51_whole: for a data set written with aipy (Archive) whose variables are set before the end of the first record, opening, init_from_uv and pipe never raise and the copy matches what was written (c51_lossless, c51_echo: bit for bit). c51_override, c51_exclude: overridden and excluded variables. c51_items, c51_written: the header items of the copy (also overridden and excluded ones), now and after flushes and reopenings; c51_history: the text is appended to the history, the other items stay. Partial because the full statement is false: c51_late_variable, c51_int_array, c51_fewer_channels, c51_time_changed, c51_exclude_again, c51_no_history are negations with witnesses. Records and items of one directory together: C87."
  },
  {
   "property": "C52",
   "status": "proved",
   "theorems": [
    "Verif.Mir.ReadFiles.c52_read_files",
    "Verif.Mir.ReadFiles.c52_total",
    "Verif.Mir.ReadFiles.c52_undecimated",
    "Verif.Mir.ReadFiles.c52_single_name"
   ],
   "note": "c52_read_files, c52_total, c52_undecimated for all lists of files, selections and decimations, on top of the reader of C50. Files without records and unknown polarisation codes raise (as in the code) and are excluded by hypothesis. c52_single_name: a single name given as a string is not read as one file. info['freqs'], 'inttime', 'sdf' and the conversion to arrays: see C144."
  },
  {
   "property": "C53",
   "status": "partial",
   "theorems": [
    "Verif.Mir.Head.c53_python",
    "Verif.Mir.Head.c53_integers",
    "Verif.Mir.Head.c53_doubles",
    "Verif.Mir.Head.c53_real",
    "Verif.Mir.Head.c53_complex",
    "Verif.Mir.Head.c53_text",
    "Verif.Mir.Head.c53_obstype_tagged",
    "Verif.Mir.Head.c53_empty_text_lost",
    "Verif.Mir.Head.c53_integers_cut",
    "Verif.Mir.Head.c53_non_ascii",
    "Verif.Mir.Head.c53_int_for_double"
   ],
   "note": "c53_python: after any history of assignments from Python and from headio.c, flushes and reopenings, uv[name] is the value last assigned (complex numbers in single precision, a list of one number as that number), and a missing item is an IOError; c53_integers, c53_doubles, c53_real, c53_complex, c53_text: the rdhdX functions return the value written through any type that holds it, and the default for a missing item. Partial because the full statement is false: c53_empty_text_lost, c53_integers_cut, c53_non_ascii, c53_int_for_double, c53_obstype_tagged. rdhdd_c of a 64-bit integer item and the ASCII fallbacks are described in DESIGN.md."
  },
  {
   "property": "C54",
   "status": "proved",
   "theorems": [
    "Verif.Mir.Head.c54_freqs",
    "Verif.Mir.Head.c54_windows"
   ],
   "note": "c54_freqs after any history of other assignments, c54_windows for any table of windows (the item below 2 GiB; channel counts within 32 bits, doubles as 64-bit patterns)."
  },
  {
   "property": "C55",
   "status": "partial",
   "theorems": [
    "Verif.Misc.c55_lookup",
    "Verif.Misc.c55_get_srcs",
    "Verif.Misc.c55_all_violated",
    "Verif.Misc.c55_get_catalog_partial",
    "Verif.Misc.c55_whole_catalog",
    "Verif.Misc.c55_unknown_violated"
   ],
   "note": "get_srcs proved for calls with names, get_catalog completely described; get_srcs() returns None (c55_all_violated) and get_catalog drops unknown names (c55_unknown_violated)."
  },
  {
   "property": "C56",
   "status": "partial",
   "theorems": [
    "Verif.Misc.c56_exact",
    "Verif.Misc.c56_julian_round_trip",
    "Verif.Misc.c56_ephem_round_trip_partial",
    "Verif.Misc.c56_ephem_round_trip_violated"
   ],
   "note": "Exact arithmetic: inverse. Doubles: JD -> ephem -> JD exact for JD in [1207510, 4830040]; the other direction only to 2^-31 day (violated as equality)."
  },
  {
   "property": "C57",
   "status": "proved",
   "theorems": [
    "Verif.Misc.c57_subsample",
    "Verif.Misc.c57_totals",
    "Verif.Misc.c57_factor_zero"
   ],
   "note": "Any field; factor 0 raises."
  },
  {
   "property": "C58",
   "status": "partial",
   "theorems": [
    "Verif.Img.c58_get_mirrored_partial",
    "Verif.Img.c58_get_violated"
   ],
   "note": "Img.get addresses the transposed cell: the value comes back at (-v,-u) (proved for all positions) and c58_get_violated shows nan at (u,v) itself."
  },
  {
   "property": "C59",
   "status": "partial",
   "theorems": [
    "Verif.Img.c59_fresh_partial",
    "Verif.Img.c59_stale_violated",
    "Verif.Img.c59_stale_case"
   ],
   "note": "Holds until the first put that follows a get; c59_stale_violated: after that every repeated get returns the old values whatever was put."
  },
  {
   "property": "C60",
   "status": "partial",
   "theorems": [
    "Verif.Phs.Upd.c60_fresh_partial",
    "Verif.Phs.Upd.c60_select_repairs",
    "Verif.Phs.Upd.c60_selection",
    "Verif.Phs.Upd.c60_set_params",
    "Verif.Phs.Upd.c60_antenna_violated",
    "Verif.Phs.Upd.c60_bad_channel_violated"
   ],
   "note": "Proved for every sequence of array-level calls that do not raise, shared beams and phase polynomials included; c60_set_params says what set_params stores.  False for set_params on a single antenna sharing its phase polynomial (c60_antenna_violated) and after select_chans has raised (c60_bad_channel_violated)."
  },
  {
   "property": "C61",
   "status": "partial",
   "theorems": [
    "Verif.Sky.c61_downgrade",
    "Verif.Sky.c61_total",
    "Verif.Sky.c61_source_modified_violated"
   ],
   "note": "Downgrading proved (sums, total, source unchanged; geometry is a parameter). Upgrading leaves interpolation switched on in the source (c61_source_modified_violated)."
  },
  {
   "property": "C62",
   "status": "partial",
   "theorems": [
    "Verif.Sky.c62_float_partial",
    "Verif.Sky.c62_add_after_reset_violated",
    "Verif.Sky.c62_put_after_reset_violated"
   ],
   "note": "Violated: the weight map becomes an int array, add raises and put truncates."
  },
  {
   "property": "C63",
   "status": "proved",
   "theorems": [
    "Verif.Sky.c63_put",
    "Verif.Sky.c63_put_get"
   ],
   "note": "Float weight map (as created); exact arithmetic."
  },
  {
   "property": "C64",
   "status": "partial",
   "theorems": [
    "Verif.Deconv.c64_best_of_all_partial",
    "Verif.Deconv.c64_violated"
   ],
   "note": "Holds for runs that end by the iteration limit; a run that ends by the tolerance returns its last state (c64_violated)."
  },
  {
   "property": "C65",
   "status": "partial",
   "theorems": [
    "Verif.Deconv.c65_only_positive_flux",
    "Verif.Deconv.c65_repeats_violated"
   ],
   "note": "Positivity proved; after a residual without positive values the old maximum is subtracted again (c65_repeats_violated)."
  },
  {
   "property": "C66",
   "status": "partial",
   "theorems": [
    "Verif.Deconv.Fit.c66_lsq_partial",
    "Verif.Deconv.Fit.c66_tolerance",
    "Verif.Deconv.Fit.c66_score_violated",
    "Verif.Deconv.Fit.c66_bounds_violated"
   ],
   "note": "Residual always belongs to the model; bounds hold after at least one iteration; score is that of the model before (c66_score_violated)."
  },
  {
   "property": "C67",
   "status": "proved",
   "theorems": [
    "Verif.Misc.c67_length",
    "Verif.Misc.c67_weighted_mean",
    "Verif.Misc.c67_constant",
    "Verif.Misc.c67_no_overshoot"
   ],
   "note": "Exact field arithmetic; polynomial extension and filter are parameters with the lengths the code gives them."
  },
  {
   "property": "C68",
   "status": "proved",
   "theorems": [
    "Verif.Phs.c68_phase",
    "Verif.Phs.c68_geometric_delay",
    "Verif.Phs.c68_body_is_vector",
    "Verif.Phs.c68_uvw_length"
   ],
   "note": "Exact real arithmetic; resolve_src off; declination strictly between the poles for the body/vector agreement."
  },
  {
   "property": "C69",
   "status": "partial",
   "theorems": [
    "Verif.Amp.c69_current_partial",
    "Verif.Amp.c69_beam_violated"
   ],
   "note": "Holds when a change of beams or frequencies is followed by sim_cache or set_jultime; positions, delays, gains need nothing.  Without it stale responses are used (c69_beam_violated)."
  },
  {
   "property": "C70",
   "status": "partial",
   "theorems": [
    "Verif.Mir.Uv.c70_append",
    "Verif.Mir.Uv.c70_rewind",
    "Verif.Mir.Uv.c70_flags",
    "Verif.Mir.Uv.c70_keeps",
    "Verif.Mir.Uv.c70_opens",
    "Verif.Mir.Uv.c70_empty_fails",
    "Verif.Mir.Uv.c70_mode_ignored"
   ],
   "note": "uvclose_c and uvopen_c(append) are part of the writer of C47 (so C47 holds for variables over sessions as well) and of C48. c70_append, c70_rewind: everything written in any number of sessions is read back in order, then the end. c70_flags: the flag file can be opened in every session. c70_opens: every data set with a visibility can be opened for appending. c70_keeps: bytes and table only grow. Partial because of the conditions of C48 on the first visibility of each session, because an empty data set cannot be appended to (c70_empty_fails) and because the corrmode of the appending UV is ignored (c70_mode_ignored): data are read as the data set was created. At most 128 variables."
  },
  {
   "property": "C71",
   "status": "partial",
   "theorems": [
    "Verif.Mir.Uv.c71_obstype_partial",
    "Verif.Mir.Uv.c71_mixed_lost",
    "Verif.Mir.Uv.c71_assigned_lost"
   ],
   "note": "c71_obstype_partial: over any sessions, provided a data set is not of both kinds when it is appended to and the first visibility of a session has a baseline that was not assigned before. Both conditions are needed: c71_mixed_lost, c71_assigned_lost. uvbasant_c is a parameter (a kind of baselines that equal numbers share)."
  },
  {
   "property": "C72",
   "status": "partial",
   "theorems": [
    "Verif.Amp.c72_centre",
    "Verif.Amp.c72_rigid",
    "Verif.Amp.c72_twist",
    "Verif.Amp.c72_azimuth",
    "Verif.Amp.c72_altitude",
    "Verif.Amp.c72_feeds",
    "Verif.Amp.c72_y_azimuth_fails"
   ],
   "note": "c72_centre, c72_rigid, c72_twist, c72_azimuth, c72_altitude, c72_feeds over exact reals for every pointing, direction and beam. Partial: the docstring's 'polarization y is +pi/2 azimuth from pol x' is false, it is at -pi/2 (c72_y_azimuth_fails); the pattern of y is that of x turned by +pi/2 by the right-hand rule, i.e. towards smaller azimuth."
  },
  {
   "property": "C73",
   "status": "partial",
   "theorems": [
    "Verif.Amp.c73_gauss_power",
    "Verif.Amp.c73_gauss_default",
    "Verif.Amp.c73_gauss_range",
    "Verif.Amp.c73_gauss_peak",
    "Verif.Amp.c73_gauss_falls",
    "Verif.Amp.c73_gauss_backlobe_fails",
    "Verif.Amp.c73_gauss_ew_fails",
    "Verif.Amp.c73_poly_form",
    "Verif.Amp.c73_poly_range",
    "Verif.Amp.c73_poly_peak",
    "Verif.Amp.c73_poly_falls",
    "Verif.Amp.c73_half_turn",
    "Verif.Amp.c73_feeds_either_way"
   ],
   "note": "c73_gauss_power, c73_gauss_range, c73_gauss_peak, c73_gauss_falls, c73_gauss_default; c73_poly_form, c73_poly_range, c73_poly_peak, c73_poly_falls; c73_half_turn and c73_feeds_either_way (for these beams the sense of the feeds does not matter). Partial: in the default pointing xwidth acts NS for feed x although documented as EW (c73_gauss_ew_fails), and the Gaussian rises again behind the antenna (c73_gauss_backlobe_fails). Exact reals; widths of zero (division by zero in numpy) are outside the statements that need them."
  },
  {
   "property": "C74",
   "status": "partial",
   "theorems": [
    "Verif.Misc.c74_selection",
    "Verif.Misc.c74_tables_partial",
    "Verif.Misc.c74_quiet",
    "Verif.Misc.c74_shared_fails",
    "Verif.Misc.c74_fluxes_lost",
    "Verif.Misc.c74_named",
    "Verif.Misc.c74_power_law",
    "Verif.Misc.c74_helm_power_law",
    "Verif.Misc.c74_helm_flux_fails"
   ],
   "note": "Heap of source objects, module-global catalogs. c74_selection: the selection by cutoff for any history, in terms of the parameters at the moment; c74_tables_partial: in terms of the tables, as long as no source was changed; c74_named; c74_quiet: calls without cutoff change nothing; c74_power_law, c74_helm_power_law: spectra. Partial because catalogs share their objects (c74_shared_fails), a cutoff overwrites the fluxes of all sources looked at (c74_fluxes_lost), and curved Helmboldt spectra do not have flux jys at mfreq (c74_helm_flux_fails)."
  },
  {
   "property": "C75",
   "status": "partial",
   "theorems": [
    "Verif.Img.c75_lm",
    "Verif.Img.c75_image",
    "Verif.Img.c75_distinct",
    "Verif.Img.c75_centre",
    "Verif.Img.c75_directions",
    "Verif.Img.c75_delay",
    "Verif.Img.c75_right_east_fails"
   ],
   "note": "c75_lm, c75_image, c75_distinct, c75_centre, c75_directions, c75_delay over exact reals, any size, resolution, center and phase centre. Partial: the docstrings' 'right=East' is false, columns to the right are west (c75_right_east_fails). Values numpy keeps below a mask and single precision rounding are not modelled."
  },
  {
   "property": "C76",
   "status": "partial",
   "theorems": [
    "Verif.Img.c76_direct",
    "Verif.Img.c76_linear",
    "Verif.Img.c76_source_partial",
    "Verif.Img.c76_phase_centre",
    "Verif.Img.c76_flux_fails"
   ],
   "note": "c76_direct: any samples, on the grid or not; c76_linear; c76_phase_centre: a source at the phase centre shows its flux times bm_image in every pixel, any samples. c76_source_partial: a source in any pixel, samples on grid points: its pixel holds its flux times the peak of bm_image lowered by the taper of the gridding function, and relative to the taper no pixel is brighter. For samples off the grid points and sources off the centre the same holds within explicit bounds (C148), and so does that no pixel is brighter (c148_brightest). Missing: the flux itself: the code does not divide out the gridding function, in the corner of an image less than 2/5 is left (c76_flux_fails)."
  },
  {
   "property": "C77",
   "status": "partial",
   "theorems": [
    "Verif.Img.c77_kernel",
    "Verif.Img.c77_put",
    "Verif.Img.c77_source",
    "Verif.Img.c77_scale_fails"
   ],
   "note": "c77_kernel: the FFT convolution multiplies the image with the w phase of each direction; c77_put: any samples and histories; c77_source: the source's pixel against a coplanar array, with the error bound 4 pi wres sqrt(W) (1-n), and exact when chunks have one w. Partial: ImgW images are Img images divided by the number of pixels, and are zero at and below the horizon (c77_scale_fails). invker2 is not modelled; exact complex numbers."
  },
  {
   "property": "C78",
   "status": "proved",
   "theorems": [
    "Verif.Img.c78_phase",
    "Verif.Img.c78_total",
    "Verif.Img.c78_image"
   ],
   "note": "c78_phase: phase and amplitude of one simulated, phased sample; c78_total: the calls go through (with one channel only if no other source is up, see C84); c78_image: any list of such samples in an ImgW, combined with c77_source (so with its scale 1/dim^2 and its error bound). Point source without refraction, flat spectrum in c78_image, exact reals."
  },
  {
   "property": "C79",
   "status": "partial",
   "theorems": [
    "Verif.Mir.UvSel.c79_all",
    "Verif.Mir.UvSel.c79_rewind_partial",
    "Verif.Mir.UvSel.c79_history_partial",
    "Verif.Mir.UvSel.c79_maxvis",
    "Verif.Mir.UvSel.c79_clear_fails",
    "Verif.Mir.UvSel.c79_reselect_fails"
   ],
   "note": "c79_all: any data set that C48/C70 can read and any selection; c79_rewind_partial: after any history of select, read and rewind calls and a rewind; c79_history_partial: every single read in any such history without selections by visibility number; c79_maxvis: the early stop loses no record. Missing, because the code violates it: select('clear') keeps the record number at which reading stops (c79_clear_fails), and a new selection after an early stop is ignored until a rewind (c79_reselect_fails). Hypotheses: antennas ordered and below 2047; the variables the selection looks at are absent or set before the first record. Selection by amplitude and window (which choose channels) is C131 and C132."
  },
  {
   "property": "C80",
   "status": "proved",
   "theorems": [
    "Verif.Mir.UvSel.c80_copy",
    "Verif.Mir.UvSel.c80_lossless",
    "Verif.Mir.UvSel.c80_whole",
    "Verif.Mir.UvSel.c80_no_silent_stop"
   ],
   "note": "c80_copy: any mfunc that keeps the preamble, any override and exclude; c80_lossless: the default mfunc, with the visibilities as they were written; c80_whole: without arguments nothing raises.  Hypotheses are those of C51 and C79 for the source; the selections are made on the newly opened file.  Selection by amplitude and window (which choose channels) is C131 and C132."
  },
  {
   "property": "C81",
   "status": "proved",
   "theorems": [
    "Verif.Mir.Uv.c81_variables",
    "Verif.Mir.Uv.c81_end",
    "Verif.Mir.Uv.c81_rewind",
    "Verif.Mir.Uv.c81_records"
   ],
   "note": "c81_variables, c81_end, c81_rewind: variables; c81_records: the visibilities of all sessions with their flags.  The writer's hwrite_c calls run on the item model of C45 (Hio), the item is closed and reopened, and the reader's hread_c calls run on it; the reads are proved equal to reads from a byte function that holds what was written, and C47/C70 apply.  Hypotheses: those of C47 and C70, at most 2^31 bytes of data (hwrite_fill_c has ints), every session but the last wrote something (for visibilities this is proved).  The flag file is the model of C43/C44."
  },
  {
   "property": "C82",
   "status": "proved",
   "theorems": [
    "Verif.Mir.Uv.c82_variables",
    "Verif.Mir.Uv.c82_end",
    "Verif.Mir.Uv.c82_items",
    "Verif.Mir.Uv.c82_records",
    "Verif.Mir.Uv.c82_blank_lost"
   ],
   "note": "c82_variables, c82_end, c82_records, c82_items: a data set is a tree of items (C46); uvopen_c, uvclose_c and uvflush_c write and read visdata, vartable (text lines through hwritea_c/hreada_c), vislen, ncorr and nwcorr in it, and the reader gets nothing else.  A simulation relates the sessions to the one writer of C47/C70, and the reads are those of C81.  Hypotheses (Program): those of C47, plain variable names (visible ASCII) that no item has (uv_override is not modelled), the program does not assign the five items of the data set itself, fewer than 1023 items, at most 2^31 bytes of stream, each session leaves a data set with a variable and some data (for sessions of UV.write proved: Sessions.program).  Disagreement: c82_blank_lost (a variable whose name has a blank comes back under another name)."
  },
  {
   "property": "C83",
   "status": "proved",
   "theorems": [
    "Verif.Mir.Uv.c83_sum",
    "Verif.Mir.Uv.c83_short"
   ],
   "note": "c83_sum, c83_short: mfunc with a state (the reader of the second file) run by pipe (PipeState).  The arithmetic of complex64 is a parameter; arrays of different sizes raise (numpy would stretch an array of one channel, not modelled).  The script does not compare the preambles of the two files (its documentation asks for corresponding files).  Hypotheses are those of C51 for the first file, and that the second was written with aipy; both with corrmode 'r'."
  },
  {
   "property": "C84",
   "status": "partial",
   "theorems": [
    "Verif.Amp.c84_sources_partial",
    "Verif.Amp.c84_one_channel_violated",
    "Verif.Amp.c84_default_jys_violated",
    "Verif.Amp.c84_catalog_partial",
    "Verif.Amp.c84_order",
    "Verif.Amp.c84_empty_violated",
    "Verif.Amp.c84_mixed_shape_violated",
    "Verif.Amp.c84_mixed_ion_violated"
   ],
   "note": "numpy shapes, broadcasting, squeeze, reshape and compress are modelled; the stacked matrices of get_baseline and the beams are lists with one entry per source. Needs two channels or at most one source up: c84_one_channel_violated. c84_default_jys_violated: without fluxes sim raises; c84_empty_violated: an empty catalog raises. Exact reals, Bessel function arbitrary, In ionrefs and srcshapes arrays may be followed by numbers; a number followed by an array goes wrong: c84_mixed_ion_violated (sim raises when some sources are down), c84_mixed_shape_violated (with as many channels as sources, entry j of the array is silently used for channel j of all sources)."
  },
  {
   "property": "C85",
   "status": "partial",
   "theorems": [
    "Verif.Amp.c85_records_partial",
    "Verif.Amp.c85_add_sub_partial",
    "Verif.Amp.c85_sim_sub_partial",
    "Verif.Amp.c85_auto_violated",
    "Verif.Amp.c85_scratch_partial"
   ],
   "note": "c85_records_partial, c85_add_sub_partial, c85_sim_sub_partial, c85_scratch_partial.  Missing, because the code violates it: with one channel and several sources up sim raises (C84), and auto-correlations are passed through, so a data set made with mode sim keeps the measured ones (c85_auto_violated).  The sidereal time of a time and the position of a source at a time (ephem) are parameters; noise (-n) is not modelled; exact complex numbers; files are lists of records (pipe is the subject of C51 and C83)."
  },
  {
   "property": "C86",
   "status": "partial",
   "theorems": [
    "Verif.Amp.c86_record",
    "Verif.Amp.c86_same",
    "Verif.Amp.c86_level",
    "Verif.Amp.c86_files_partial",
    "Verif.Amp.c86_options",
    "Verif.Amp.c86_zenith"
   ],
   "note": "c86_record, c86_same, c86_level, c86_zenith: any record that holds visibilities of the model.  c86_options: the options --no_gain and --no_phs, any data.  c86_files_partial: mdlvis.py and then apply_cal.py on whole files, for cross-correlations, with the limits of C85.  Gains of zero give infinities in the code (an error in the model); exact complex numbers."
  },
  {
   "property": "C87",
   "status": "proved",
   "theorems": [
    "Verif.Mir.Uv.c87_whole",
    "Verif.Mir.Uv.c87_mfunc"
   ],
   "note": "c87_whole (default mfunc, with override and exclude for variables and items), c87_mfunc (any mfunc that keeps the preamble and, like the scripts, returns arrays of the same length): source and copy are directories (C82); opening, copying the items, copying the variables, the records, closing, and opening the copy by a program that knows only the directory.  Hypotheses (Origin, VarsOk, ItemsOk): the source was written with aipy (corrmode 'r') with a history, its variables are set before the end of the first record and have a value that python can hold, items were assigned from python (obstype by uvflush_c); the stream of the copy has at most 2^31 bytes.  Each hypothesis that the code needs has its witness under C51.  The file of flags is related to both data sets by FlagFile (C43) and is not an item of the directory here; uvflush_c writes obstype before the other items in the model, after vartable in the code."
  },
  {
   "property": "C88",
   "status": "proved",
   "theorems": [
    "Verif.Coord.c88_towards_zenith",
    "Verif.Coord.c88_unique",
    "Verif.Coord.c88_meridian"
   ],
   "note": "All three statements; real numbers instead of floats."
  },
  {
   "property": "C89",
   "status": "partial",
   "theorems": [
    "Verif.Amp.c89_zenith",
    "Verif.Amp.c89_setphs",
    "Verif.Amp.c89_offsets_violated",
    "Verif.Amp.c89_offsets_partial",
    "Verif.Amp.c89_raises"
   ],
   "note": "c89_zenith and c89_setphs hold in full.  Without a source only half of the offsets is removed (c89_offsets_violated; c89_offsets_partial: running the script twice removes them).  A named source and --rot_uvw raise (c89_raises)."
  },
  {
   "property": "C90",
   "status": "partial",
   "theorems": [
    "Verif.Dsp.c90_tones",
    "Verif.Dsp.c90_twice",
    "Verif.Dsp.c90_sum",
    "Verif.Dsp.c90_flagged",
    "Verif.Dsp.c90_steady",
    "Verif.Dsp.c90_rate0",
    "Verif.Dsp.c90_other_pol_raises",
    "Verif.Dsp.c90_passband_raises"
   ],
   "note": "c90_tones, c90_twice, c90_sum, c90_flagged, c90_steady hold as stated (exact complex numbers; -d of 0 or more; drw = -1 in c90_tones and c90_twice).  Records of polarisations not listed raise (c90_other_pol_raises), --passband raises (c90_passband_raises), and -r 0 removes the steady part instead of keeping it alone (c90_rate0)."
  },
  {
   "property": "C91",
   "status": "partial",
   "theorems": [
    "Verif.Dsp.c91_window_partial",
    "Verif.Dsp.c91_source_partial",
    "Verif.Dsp.c91_short_violated",
    "Verif.Dsp.c91_offset_violated",
    "Verif.Dsp.c91_with_source_raises"
   ],
   "note": "c91_window_partial and c91_source_partial hold for arrays without phase offsets; the upper part (far delays are removed) needs baselines of which 1.5 times the length is more than half a bin of delay. c91_short_violated: on shorter baselines nothing is removed by -e and everything by the filter, since the slice d[u:0] is empty. c91_offset_violated: with phase offsets, the values of the offset in the last two channels are taken for the delay and the phase, the window is misplaced, and the extraction of a source overhead returns zeros. c91_with_source_raises: with a source, -d -1 raises a NameError."
  },
  {
   "property": "C92",
   "status": "proved",
   "theorems": [
    "Verif.Coord.c92_matrix",
    "Verif.Coord.c92_chain",
    "Verif.Coord.c92_round_trip",
    "Verif.Coord.c92_unknown",
    "Verif.Coord.c92_note_violated",
    "Verif.Coord.c92_frames"
   ],
   "note": "ephem's conversion is modelled as the change between two frames (a rotation for every system and epoch).  The NOTE of the docstring is refuted (c92_note_violated)."
  },
  {
   "property": "C93",
   "status": "partial",
   "theorems": [
    "Verif.Sky.c93_sources_partial",
    "Verif.Sky.c93_flux",
    "Verif.Sky.c93_order",
    "Verif.Sky.c93_epoch_violated",
    "Verif.Sky.c93_wrap_violated",
    "Verif.Sky.c93_system_violated"
   ],
   "note": "c93_sources_partial: pixels and fluxes in full; the place is right for point sources of J2000 maps and for extended sources of equatorial maps away from right ascension zero.  Violated: other epochs are precessed twice (c93_epoch_violated), ellipses in other systems are drawn at the equatorial coordinates (c93_system_violated), ellipses are cut at right ascension zero (c93_wrap_violated).  c93_flux, c93_order in full.  The regridding of an input map (lines 45-66) is not modelled."
  },
  {
   "property": "C94",
   "status": "partial",
   "theorems": [
    "Verif.Deconv.MaxEnt.c94_newton",
    "Verif.Deconv.MaxEnt.c94_report",
    "Verif.Deconv.MaxEnt.c94_bounds_partial",
    "Verif.Deconv.MaxEnt.c94_gradient",
    "Verif.Deconv.MaxEnt.c94_perfect_violated",
    "Verif.Deconv.MaxEnt.c94_bounds_violated",
    "Verif.Deconv.MaxEnt.c94_negative_violated"
   ],
   "note": "c94_report in full; c94_newton: every pass is the part gain of a Newton step for the constrained maximum; c94_gradient: slope and curvature are the first and second derivative of the objective where the kernel is a multiple of the delta function (the approximation the docstring names).  Exact reals; logarithms of numbers that are not positive and divisions by zero are kept apart as 'not finite'.  c94_bounds_partial needs tol at most 1: with a larger tol the unclipped starting model is returned (c94_bounds_violated).  An image the starting model explains perfectly makes d_alpha 0/0 and ends as divergence without an image (c94_perfect_violated), so does an image with negative mean under the default model (c94_negative_violated)."
  },
  {
   "property": "C95",
   "status": "partial",
   "theorems": [
    "Verif.Deconv.c95_sound",
    "Verif.Deconv.c95_complete",
    "Verif.Deconv.c95_zero_violated",
    "Verif.Deconv.c95_default_violated"
   ],
   "note": "c95_sound: the result is that of the first successful trial in the documented order; c95_complete: the search ends.  Without var the call raises (maxiter/4 is a float, range refuses it): c95_default_violated; with var = 0 it never ends unless 0 converges: c95_zero_violated."
  },
  {
   "property": "C96",
   "status": "partial",
   "theorems": [
    "Verif.Scripting.c96_parse",
    "Verif.Scripting.c96_catalog",
    "Verif.Scripting.c96_whole",
    "Verif.Scripting.c96_names_violated",
    "Verif.Scripting.c96_position_violated",
    "Verif.Scripting.c96_cutoff_violated"
   ],
   "note": "c96_parse: the three forms; c96_catalog, c96_whole: composition with get_catalog of C55.  float() is an arbitrary partial function, a position an arbitrary object.  Missing, because the code violates it: names that begin with all or have a / in the list (c96_names_violated), sources of a catalog that are named by their position, as all sources of the 6C and 7C catalogs are (c96_position_violated: a source without flux takes their place), cutoffs with more than two numbers (c96_cutoff_violated)."
  },
  {
   "property": "C97",
   "status": "partial",
   "theorems": [
    "Verif.Img.c97_wrap",
    "Verif.Img.c97_indent_violated",
    "Verif.Img.c97_narrow_violated"
   ],
   "note": "The first line is indented by one space more than ind1 (c97_indent_violated); a width with no room for a word raises ZeroDivisionError or, one less, silently returns the prefix without the text (c97_narrow_violated). All the rest holds for every text: c97_wrap."
  },
  {
   "property": "C98",
   "status": "partial",
   "theorems": [
    "Verif.Amp.c98_active",
    "Verif.Amp.c98_linear",
    "Verif.Amp.c98_beam",
    "Verif.Amp.c98_offsets_violated",
    "Verif.Amp.c98_V_violated",
    "Verif.Amp.c98_sim_violated"
   ],
   "note": "Linear polarisations behave as stated (c98_active, c98_linear) and so do the beams of the Stokes parameters (c98_beam). Offsets of the Stokes parameters are not those of their correlations: I and U are doubled, Q and V vanish for equal cables (c98_offsets_violated), that of V does not change sign with the baseline (c98_V_violated), and a simulation in a Stokes parameter raises KeyError (c98_sim_violated)."
  },
  {
   "property": "C99",
   "status": "proved",
   "theorems": [
    "Verif.Mir.Uv.c99_pull",
    "Verif.Mir.Uv.c99_unknown"
   ],
   "note": "For scripts run with -p (without it the default 8 is not a string and the script raises). Records of one number of channels, real (not scaled) correlations, source made by the library; the history line is stated for lists without duplicates."
  },
  {
   "property": "C100",
   "status": "partial",
   "theorems": [
    "Verif.Mir.Uv.c100_flags_partial",
    "Verif.Mir.Uv.c100_distinct_partial",
    "Verif.Mir.Uv.c100_raises_violated",
    "Verif.Mir.Uv.c100_nan"
   ],
   "note": "Holds for --flagmode none, or val/int where there is nothing for them to look at, without --share (c100_flags_partial, c100_distinct_partial). The default mode raises on every file, val with any correlation of two antennas, int with any of an antenna with itself, --share always (c100_raises_violated; python 3 and a numpy that wants an integer number of bins). Of records with the same polarisation, antennas and time all get the flags of the last one. A time that is not a number raises KeyError (c100_nan). nchan of the first file of the command line is taken for all files."
  },
  {
   "property": "C101",
   "status": "partial",
   "theorems": [
    "Verif.Mir.Uv.c101_vars",
    "Verif.Mir.Uv.c101_items",
    "Verif.Mir.Uv.c101_get",
    "Verif.Mir.Uv.c101_header",
    "Verif.Mir.Uv.c101_blank_violated"
   ],
   "note": "Holds for names of visible ASCII characters (c101_vars, c101_items, c101_get, c101_header). A variable with a blank in its name is stored, but vars() lacks it and uv[name] is a KeyError (c101_blank_violated)."
  },
  {
   "property": "C102",
   "status": "partial",
   "theorems": [
    "Verif.Dsp.Spikes.c102_masked",
    "Verif.Dsp.Spikes.c102_smooth",
    "Verif.Dsp.Spikes.c102_first_partial",
    "Verif.Dsp.Spikes.c102_recovers",
    "Verif.Dsp.Spikes.c102_single_spike",
    "Verif.Dsp.Spikes.c102_caller",
    "Verif.Dsp.Spikes.c102_shift_violated",
    "Verif.Dsp.Spikes.c102_wrong_sample_violated"
   ],
   "note": "c102_masked for every fit, mask and number of iterations; c102_smooth, c102_recovers, c102_single_spike for every least-squares fit; c102_caller: the caller's mask is only added to. c102_first_partial covers the rounds only for the first round without a mask, because with masked samples the code puts the outliers at wrong places: c102_shift_violated (a spike is never removed) and c102_wrong_sample_violated (a good sample is masked). np.polyfit is assumed to be a least-squares fit."
  },
  {
   "property": "C103",
   "status": "partial",
   "theorems": [
    "Verif.Img.MkImg.c103_images_partial",
    "Verif.Img.MkImg.c103_lost_violated",
    "Verif.Img.MkImg.c103_snap_partial",
    "Verif.Img.MkImg.c103_first_violated",
    "Verif.Img.MkImg.c103_zen_violated",
    "Verif.Img.MkImg.c103_single_violated",
    "Verif.Img.MkImg.c103_batches"
   ],
   "note": "c103_images_partial and c103_snap_partial hold where the buffer is not gridded with the last record of a pointing (snapshot) and no record gives a single sample; snapshots must have samples. Otherwise the image is not written and its samples go into the image of the next pointing (c103_lost_violated), and a single sample gives no image (c103_single_violated). The first snapshot of n >= 2 lacks an integration (c103_first_violated), and with --src=zen a snapshot is phased to the zenith of the integration before it (c103_zen_violated). c103_batches (how samples are cut into batches does not matter) is for --no_w, over exact real numbers. What calibration makes of a record is a parameter; a ValueError in the middle of a pointing is modelled as failure of the script."
  },
  {
   "property": "C104",
   "status": "partial",
   "theorems": [
    "Verif.Sky.MkMap.c104_mosaic_partial",
    "Verif.Sky.MkMap.c104_add_partial",
    "Verif.Sky.MkMap.c104_twice_violated",
    "Verif.Sky.MkMap.c104_stale_violated",
    "Verif.Sky.MkMap.c104_directions",
    "Verif.Sky.MkMap.c104_mkimg"
   ],
   "note": "c104_mosaic_partial and c104_add_partial hold for the map pixels that get at most one pixel of every image after the first (c104_add_partial: of every image), and for images that have one size where they have one d_ra. Otherwise Map.add counts what is there once per image pixel (c104_twice_violated gives the value the map has and when it is the mean), and an image with the d_ra of the one before it is read in the geometry of that one (c104_stale_violated). c104_directions and c104_mkimg: directions of pixels, and that d_ra as written by mk_img.py gives the resolution back. Exact real numbers; interpolation off; frames and the pixel of a direction are parameters."
  },
  {
   "property": "C105",
   "status": "partial",
   "theorems": [
    "Verif.Misc.CatFiles.c105_file",
    "Verif.Misc.CatFiles.c105_all_partial",
    "Verif.Misc.CatFiles.c105_lost_violated",
    "Verif.Misc.CatFiles.c105_blank_violated",
    "Verif.Misc.CatFiles.c105_noflux_violated",
    "Verif.Misc.CatFiles.c105_paper",
    "Verif.Misc.CatFiles.c105_mrt",
    "Verif.Misc.CatFiles.c105_mrt_violated"
   ],
   "note": "c105_file gives, for every file of the layout and every name, the source of the last row with that name; c105_all_partial: if no two rows have the same name every row has its source. Rows with a name that comes again are lost (c105_lost_violated). A line with more than four columns and an empty first one, and a row without a flux (all but Parkes), make fromfile raise, so that the whole catalog is lost (c105_blank_violated, c105_noflux_violated). c105_paper and c105_mrt for the two other formats; an MRT line with fewer than four words, such as an empty line at the end, raises (c105_mrt_violated). float is a parameter."
  },
  {
   "property": "C106",
   "status": "partial",
   "theorems": [
    "Verif.Misc.CatCache.c106_calls_partial",
    "Verif.Misc.CatCache.c106_missing_violated",
    "Verif.Misc.CatCache.c106_shared_violated"
   ],
   "note": "c106_calls_partial: all sequences of calls give the sources of the files, when every file can be read and nobody changes a source. If a file cannot be read the first call raises and all later calls silently give nothing (c106_missing_violated), and what is done to a source that was handed out is in all later calls (c106_shared_violated)."
  },
  {
   "property": "C107",
   "status": "partial",
   "theorems": [
    "Verif.Misc.Culgoora.c107_culgoora_partial",
    "Verif.Misc.Culgoora.c107_noindex_violated",
    "Verif.Misc.Culgoora.c107_limit_violated",
    "Verif.Misc.Culgoora.c107_noflux_violated"
   ],
   "note": "c107_culgoora_partial: as documented for rows that have an index exactly if they have two measurements and whose single fluxes are no limits. Two measurements without an index give index 0 (c107_noindex_violated); a limit that is the only flux is taken for a measurement (c107_limit_violated); c107_noflux_violated says exactly which rows give a source whose flux is None, which raises when fluxes are computed. Row by row; the loop over the file is that of C105."
  },
  {
   "property": "C108",
   "status": "partial",
   "theorems": [
    "Verif.Misc.Helm.c108_catalog_partial",
    "Verif.Misc.Helm.c108_again_violated",
    "Verif.Misc.Helm.c108_nofit_violated",
    "Verif.Misc.Helm.c108_gap_violated",
    "Verif.Misc.Helm.c108_jys_violated"
   ],
   "note": "c108_catalog_partial: for the four forms of fits the shipped table has (columns filled from the left), one fit per source, measurements that agree on the position, and the first catalog of the process. A second catalog has every measurement twice (c108_again_violated); a source without a fit or with two makes the whole catalog fail (c108_nofit_violated); a fit with A and B but no power law is read with A for the slope (c108_gap_violated); jys of a curved spectrum is not the flux at mfreq (c108_jys_violated). float is a parameter that ignores white space around a number; sources with only a flux have it at 74 MHz (the code documents their index as bogus)."
  },
  {
   "property": "C109",
   "status": "partial",
   "theorems": [
    "Verif.Misc.Xtalk.c109_mean_partial",
    "Verif.Misc.Xtalk.c109_zero_partial",
    "Verif.Misc.Xtalk.c109_static_partial",
    "Verif.Misc.Xtalk.c109_python3_violated"
   ],
   "note": "c109_mean_partial, c109_zero_partial, c109_static_partial: for all lists of files, with python 2. In python 3 a dict has no has_key, and the first file raises with nothing written (c109_python3_violated)."
  },
  {
   "property": "C110",
   "status": "partial",
   "theorems": [
    "Verif.Misc.Xtalk.c110_reprocess_partial",
    "Verif.Misc.Xtalk.c110_gap_violated",
    "Verif.Misc.Xtalk.c110_separable",
    "Verif.Misc.Xtalk.c110_python3_violated",
    "Verif.Misc.Xtalk.c110_apply_partial",
    "Verif.Misc.Xtalk.c110_day_partial",
    "Verif.Misc.Xtalk.c110_shift_violated"
   ],
   "note": "c110_apply_partial (-o, -i), c110_reprocess_partial (-r) and c110_day_partial (-o, -r, -i) with python 2 for -o and -r, when every file of the day has a stored crosstalk with the same baselines and some data in the channel range; c110_separable: one shape times positive levels is given back. In python 3 -r raises (c110_python3_violated). With a file or a baseline missing -r raises an IndexError and has by then written, for the file number i, the level of the i-th file that has the baseline (c110_gap_violated, c110_shift_violated)."
  },
  {
   "property": "C111",
   "status": "partial",
   "theorems": [
    "Verif.Misc.Combine.c111_combine_partial",
    "Verif.Misc.Combine.c111_flag_options",
    "Verif.Misc.Combine.c111_tie_violated",
    "Verif.Misc.Combine.c111_freq_violated",
    "Verif.Misc.Combine.c111_raises_violated",
    "Verif.Misc.Combine.c111_same",
    "Verif.Misc.Combine.c111_unify_violated"
   ],
   "note": "c111_combine_partial (any list of files without -u, a numpy that takes floats as lengths) with c111_flag_options; c111_same: N channels already. With any other numpy a file to be combined raises (c111_raises_violated); as many flagged as good channels are flagged (c111_tie_violated); frequencies are half an original channel too high (c111_freq_violated); with -u the records of the second file have the variables of the last record of the first (c111_unify_violated)."
  },
  {
   "property": "C112",
   "status": "proved",
   "theorems": [
    "Verif.Misc.ApplyBp.c112_apply",
    "Verif.Misc.ApplyBp.c112_ten",
    "Verif.Misc.ApplyBp.c112_names",
    "Verif.Misc.ApplyBp.c112_once"
   ],
   "note": "c112_apply for all lists of files; c112_ten, c112_names; c112_once: a second run on the copy."
  },
  {
   "property": "C113",
   "status": "partial",
   "theorems": [
    "Verif.Misc.Cal.c113_freqs",
    "Verif.Misc.Cal.c113_aa_partial",
    "Verif.Misc.Cal.c113_aa_python3_violated",
    "Verif.Misc.Cal.c113_catalog_partial",
    "Verif.Misc.Cal.c113_catalog_python3_violated",
    "Verif.Misc.Cal.c113_import_violated"
   ],
   "note": "c113_freqs; c113_aa_partial and c113_catalog_partial in python 2. In python 3 get_aa raises for every module (c113_aa_python3_violated) and get_catalog for every module that has the function and without key (c113_catalog_python3_violated): names bound by exec are not seen by the function. A module that raises ImportError itself is taken for one without catalog (c113_import_violated)."
  },
  {
   "property": "C114",
   "status": "partial",
   "theorems": [
    "Verif.Amp.FluxCal.c114_divide_partial",
    "Verif.Amp.FluxCal.c114_names",
    "Verif.Amp.FluxCal.c114_beam_violated",
    "Verif.Amp.FluxCal.c114_below_violated",
    "Verif.Amp.FluxCal.c114_nosrc"
   ],
   "note": "c114_divide_partial in python 2, with -f if there is -b and the source above the horizon at every record; c114_names, c114_nosrc. -b without -f always raises, as sim_cache is only called for -f (c114_beam_violated); -b with the source below the horizon raises (c114_below_violated). In python 3 the array cannot be had (C113)."
  },
  {
   "property": "C115",
   "status": "partial",
   "theorems": [
    "Verif.Misc.AmpClose.c115_gains_partial",
    "Verif.Misc.AmpClose.c115_base_violated",
    "Verif.Misc.AmpClose.c115_flag_violated"
   ],
   "note": "Proved for --wgt=equal in python 2 (pols.sort() on dictionary keys): with amplitudes that close, no partly flagged records, antennas in order within a baseline and baselines that determine the gains, the equations are regular, the antennas are those of the records used, and the gains have mean 1/flx and the ratios of the true gains raised to the power ln 10 - natural logarithms are undone with 10**x, so that the ratio of a larger to a smaller gain always comes out too large (violated). Flagged data are added but not counted: equal antennas get different gains if a channel is flagged in one record of two (violated)."
  },
  {
   "property": "C116",
   "status": "partial",
   "theorems": [
    "Verif.Amp.BeamAlm.c116_response_partial",
    "Verif.Amp.BeamAlm.c116_pixwin_violated",
    "Verif.Amp.BeamAlm.c116_above_violated",
    "Verif.Amp.BeamAlm.c116_negative_violated",
    "Verif.Amp.BeamAlm.c116_size"
   ],
   "note": "c116_response_partial for coefficients with distinct powers 0..deg, where the maps are smoothed by the pixel window: from_alm hands the scheme to alm.to_map as pixwin (c116_pixwin_violated). Coefficients above deg are dropped without a word (c116_above_violated) and negative keys set powers counted from the top (c116_negative_violated). c116_size: wrong numbers of coefficients raise."
  },
  {
   "property": "C117",
   "status": "partial",
   "theorems": [
    "Verif.Img.Fits.c117_roundtrip_partial",
    "Verif.Img.Fits.c117_clobber_violated",
    "Verif.Img.Fits.c117_squeeze_violated",
    "Verif.Img.Fits.c117_freq_violated",
    "Verif.Img.Fits.c117_center_violated",
    "Verif.Img.Fits.c117_galactic_violated",
    "Verif.Img.Fits.c117_find_axis_violated"
   ],
   "note": "c117_roundtrip_partial for arrays without dimensions of length one (these raise, c117_squeeze_violated). clobber is ignored (c117_clobber_violated); freq is put at the middle entry (c117_freq_violated); for even sizes the reference pixel is one before the centre of Img (c117_center_violated); glon/glat are not read back (c117_galactic_violated); find_axis raises whenever it finds the axis (c117_find_axis_violated)."
  },
  {
   "property": "C118",
   "status": "partial",
   "theorems": [
    "Verif.Sky.MapFits.c118_roundtrip_partial",
    "Verif.Sky.MapFits.c118_clobber",
    "Verif.Sky.MapFits.c118_append_violated",
    "Verif.Sky.MapFits.c118_nested_violated",
    "Verif.Sky.MapFits.c118_mixed_violated",
    "Verif.Sky.MapFits.c118_weights",
    "Verif.Sky.MapFits.c118_pixels",
    "Verif.Sky.MapFits.c118_nindices",
    "Verif.Sky.MapFits.c118_fresh",
    "Verif.Sky.MapFits.c118_interp_violated",
    "Verif.Sky.MapFits.c118_healpix",
    "Verif.Sky.MapFits.c118_healpix_clobber",
    "Verif.Sky.MapFits.c118_columns",
    "Verif.Sky.MapFits.c118_one_column_violated"
   ],
   "note": "c118_roundtrip_partial into a Map without index maps and with one ordering for all maps; c118_clobber, c118_weights, c118_pixels, c118_nindices. Index maps are appended to those there (c118_append_violated); the card is NEST (c118_nested_violated); weights ordered otherwise than the data are read back in the wrong order (c118_mixed_violated); index maps of a file are not interpolated (c118_interp_violated). c118_healpix, c118_healpix_clobber: HealpixMap alone; c118_columns: the columns of a file. c118_one_column_violated: a nested one-column file gives a Map whose weights are in the other ordering."
  },
  {
   "property": "C119",
   "status": "partial",
   "theorems": [
    "Verif.Img.GaussBeam.c119_convolve",
    "Verif.Img.GaussBeam.c119_gain",
    "Verif.Img.GaussBeam.c119_gaussian_partial",
    "Verif.Img.GaussBeam.c119_center_violated",
    "Verif.Img.GaussBeam.c119_area_violated",
    "Verif.Img.GaussBeam.c119_peak",
    "Verif.Img.GaussBeam.c119_shape_violated"
   ],
   "note": "c119_convolve for all matrices; c119_gain, c119_peak; c119_gaussian_partial for a pair as shape: the peak is amp, at -center. Violated: the peak is not at center (c119_center_violated), the area is more than amp (c119_area_violated), an integer shape is ignored and with a float sigma raises (c119_shape_violated)."
  },
  {
   "property": "C120",
   "status": "partial",
   "theorems": [
    "Verif.Misc.InterpFull.c120_extend",
    "Verif.Misc.InterpFull.c120_length_partial",
    "Verif.Misc.InterpFull.c120_length_violated",
    "Verif.Misc.InterpFull.c120_constant",
    "Verif.Misc.InterpFull.c120_line_violated"
   ],
   "note": "c120_extend for all polynomials; c120_length_partial and c120_constant for factors that are powers of two (default order for the constant), where the arithmetic of doubles is exact. Violated: factor 6 gives one value too few (c120_length_violated, by exact rounding of the four operations); rising lines come out too low at every sample, as the window is not centred (c120_line_violated, all such factors and lengths)."
  },
  {
   "property": "C121",
   "status": "partial",
   "theorems": [
    "Verif.Sky.Sphere.c121_points_partial",
    "Verif.Sky.Sphere.c121_powers",
    "Verif.Sky.Sphere.c121_seven_violated"
   ],
   "note": "c121_points_partial: whatever is returned is as stated, for all N up to 2**48; c121_powers: powers of two do not raise. N = 7 * 2**k raises for all k up to 45: dL*N/dL is just above N in doubles, so that there is one longitude too many (c121_seven_violated). sizeZ_ok proves by error bounds that the z coordinates are always N."
  },
  {
   "property": "C122",
   "status": "partial",
   "theorems": [
    "Verif.Scripting.c122_selection_partial",
    "Verif.Scripting.c122_arc",
    "Verif.Scripting.c122_moving_violated",
    "Verif.Scripting.c122_sep_violated",
    "Verif.Scripting.c122_fit_one_partial",
    "Verif.Scripting.c122_fit_violated",
    "Verif.Scripting.c122_prms_violated",
    "Verif.Scripting.c122_list"
   ],
   "note": "c122_selection_partial: the list is sorted, without repetition and exactly the sources asked for, if --sep comes with --cen and moving bodies with a date. c122_arc: the RA range is the eastward arc. c122_list: the list can be split. Violated: a moving body without --juldate raises (c122_moving_violated); --sep without --cen lists nothing (c122_sep_violated); --fitprms for two or more sources misses the last comma and parse_prms silently drops the last source (c122_fit_violated; one source is read back, c122_fit_one_partial); -P without --fitprms raises (c122_prms_violated)."
  },
  {
   "property": "C123",
   "status": "partial",
   "theorems": [
    "Verif.Misc.Compress.c123_kept_partial",
    "Verif.Misc.Compress.c123_only_adds_partial",
    "Verif.Misc.Compress.c123_roundtrip_partial",
    "Verif.Misc.Compress.c123_stops",
    "Verif.Misc.Compress.c123_blank_violated",
    "Verif.Misc.Compress.c123_slash_violated"
   ],
   "note": "c123_kept_partial, c123_only_adds_partial, c123_roundtrip_partial, c123_stops for names without blanks, trailing slashes and special characters; tar is a parameter that works or fails as a whole. Violated: names with a blank destroy another file (c123_blank_violated); a directory with trailing slash and -d loses directory and archive (c123_slash_violated)."
  },
  {
   "property": "C124",
   "status": "partial",
   "theorems": [
    "Verif.Fit.Score.c124_value_partial",
    "Verif.Fit.Score.c124_exact_violated",
    "Verif.Fit.Score.c124_master_partial",
    "Verif.Fit.Score.c124_empty_violated",
    "Verif.Fit.Score.c124_daemon_violated",
    "Verif.Fit.Score.c124_twice_violated"
   ],
   "note": "c124_value_partial for all sequences of evaluations if the start is not exact; c124_master_partial if no sample is given to two daemons. Violated: a start that fits exactly gives NaN and then 0 whatever is tried (c124_exact_violated); without data the master raises where a single process gives 0 (c124_empty_violated); --daemon=0 is no daemon (c124_daemon_violated); samples in two daemons count twice (c124_twice_violated). Exact arithmetic; the simulation is a parameter."
  },
  {
   "property": "C125",
   "status": "partial",
   "theorems": [
    "Verif.Fit.Snap.c125_snaps_partial",
    "Verif.Fit.Snap.c125_phase_violated",
    "Verif.Fit.Snap.c125_same_time_violated"
   ],
   "note": "c125_snaps_partial for phases less than the decimation and times that are all different. Violated: larger phases label fits with the times of other integrations (c125_phase_violated); integrations with the same time are fitted together (c125_same_time_violated)."
  },
  {
   "property": "C126",
   "status": "partial",
   "theorems": [
    "Verif.Fit.Shared.c126_free",
    "Verif.Fit.Shared.c126_shared_partial",
    "Verif.Fit.Shared.c126_start",
    "Verif.Fit.Shared.c126_order_violated",
    "Verif.Fit.Shared.c126_first_violated",
    "Verif.Fit.Shared.c126_shown_violated"
   ],
   "note": "c126_free and c126_start are complete. c126_shared_partial for groups that do not name the same parameter of the same object twice and whose first object has the parameter. Violated: overlapping groups depend on their order (c126_order_violated); KeyError if only the first object lacks the parameter (c126_first_violated); a parameter shared and also in --prms is varied without effect and printed with a value that was not used (c126_shown_violated)."
  },
  {
   "property": "C127",
   "status": "partial",
   "theorems": [
    "Verif.Img.ClImg.c127_consistent",
    "Verif.Img.ClImg.c127_natural",
    "Verif.Img.ClImg.c127_unknown",
    "Verif.Img.ClImg.c127_weights_partial",
    "Verif.Img.ClImg.c127_odd_violated",
    "Verif.Img.ClImg.c127_pos_def_violated"
   ],
   "note": "c127_consistent for all weightings and sizes, c127_natural and c127_unknown (other names are refused) complete; c127_weights_partial for even numbers of pixels, all four weightings. Violated: with 2m+1 pixels the uv coordinates are not symmetric and the weights of a real image are averages of two different ones (c127_odd_violated); --pos_def switches positivity off (c127_pos_def_violated). Exact arithmetic; the deconvolvers are C36-C40, C64-C66, C94, C95."
  },
  {
   "property": "C128",
   "status": "partial",
   "theorems": [
    "Verif.Img.Restore.c128_flux",
    "Verif.Img.Restore.c128_place_partial",
    "Verif.Img.Restore.c128_peak_partial",
    "Verif.Img.Restore.c128_odd_violated",
    "Verif.Img.Restore.c128_width_violated",
    "Verif.Img.Restore.c128_column_violated",
    "Verif.Img.Restore.c128_edge_violated",
    "Verif.Img.Restore.c128_pixel_violated",
    "Verif.Img.Restore.c128_defined",
    "Verif.Img.Restore.c128_bim"
   ],
   "note": "c128_flux and c128_bim for all sizes and beams; c128_place_partial, c128_peak_partial for even numbers of pixels and beams with their peak at the first pixel whose magnitude is a product of two profiles; c128_defined says when nothing raises. Violated: odd numbers of pixels move everything by one pixel (c128_odd_violated); the widths are exchanged (c128_width_violated); the search for the peak's row ignores the first column (c128_column_violated) and raises if all is in it (c128_edge_violated); a single bright pixel is given a width, as widths are measured from the other coordinate (c128_pixel_violated). Float slices cut to integers as numpy did up to 1.11."
  },
  {
   "property": "C129",
   "status": "partial",
   "theorems": [
    "Verif.Dsp.FindDelay.c129_sum",
    "Verif.Dsp.FindDelay.c129_even_violated",
    "Verif.Dsp.FindDelay.c129_odd_violated",
    "Verif.Dsp.FindDelay.c129_bin_partial",
    "Verif.Dsp.FindDelay.c129_flags_violated",
    "Verif.Dsp.FindDelay.c129_never_violated",
    "Verif.Dsp.FindDelay.c129_equations_partial",
    "Verif.Dsp.FindDelay.c129_between_partial"
   ],
   "note": "c129_sum complete: which records are added up. c129_bin_partial: delays of whole bins to within one bin, last record without flags; c129_equations_partial: the equations have the antennas' delays as solutions, up to a common one, if all antennas are joined. Violated: bins are mislabelled (c129_even_violated, c129_odd_violated); only the last record's flags count (c129_flags_violated); the equations are always singular, so that nothing is ever printed (c129_never_violated; in floating point the inverse may exist by rounding). c129_between_partial: a delay anywhere between the bins is found in the nearest one (exactly half-way excluded), hence to within one and a half bins."
  },
  {
   "property": "C130",
   "status": "partial",
   "theorems": [
    "Verif.Misc.XrfiSimple.c130_data",
    "Verif.Misc.XrfiSimple.c130_flags_partial",
    "Verif.Misc.XrfiSimple.c130_half",
    "Verif.Misc.XrfiSimple.c130_jumps_half",
    "Verif.Misc.XrfiSimple.c130_combine_partial",
    "Verif.Misc.XrfiSimple.c130_npz",
    "Verif.Misc.XrfiSimple.c130_thresh_violated",
    "Verif.Misc.XrfiSimple.c130_select_violated",
    "Verif.Misc.XrfiSimple.c130_repeat_violated"
   ],
   "note": "c130_data, c130_half, c130_jumps_half, c130_npz complete. c130_flags_partial, c130_combine_partial: all records selected and no two of the same baseline, polarisation and time. Violated otherwise: --combine drops the file's own flags and the channels given where a time has fewer records than the threshold (c130_thresh_violated); -a makes records not selected a KeyError, or flags them wholly with --combine (c130_select_violated); of two records of one key the first loses its flags (c130_repeat_violated). Python 2, as the script needs."
  },
  {
   "property": "C131",
   "status": "partial",
   "theorems": [
    "Verif.Mir.UvAmp.c131_read_partial",
    "Verif.Mir.UvAmp.c131_every",
    "Verif.Mir.UvAmp.c131_stale_violated",
    "Verif.Mir.UvAmp.c131_two_violated"
   ],
   "note": "c131_read_partial: any data set and selections of C79 and one interval; c131_every: without 'or' every record returned is clipped. Floats are reals with a rounding of relative error at most eps; the ends of the interval are left open by that much (exact for eps = 0). Missing, because the code violates it: an interval stays in use although a later 'and' discarded what its clause selected (c131_stale_violated), and two intervals are a fatal error, in one clause when selected, in two when a record passes both (c131_two_violated)."
  },
  {
   "property": "C132",
   "status": "partial",
   "theorems": [
    "Verif.Mir.Windows.c132_read_partial",
    "Verif.Mir.Windows.c132_refused",
    "Verif.Mir.Windows.c132_place_violated",
    "Verif.Mir.Windows.c132_exclude_violated",
    "Verif.Mir.Windows.c132_gap_violated",
    "Verif.Mir.Windows.c132_or_violated"
   ],
   "note": "c132_read_partial: contiguous blocks of windows the file has; c132_refused: everything else is a fatal error. Missing, because the code violates it: the channels are moved to the beginning of the arrays and the rest is uninitialised memory, which UV.read returns (c132_place_violated); discarding a window of a file with fewer than fifteen is refused (c132_exclude_violated), as are gaps (c132_gap_violated) and 'or' (c132_or_violated). The model is of one record that the other selections select; at most sixteen windows."
  },
  {
   "property": "C133",
   "status": "partial",
   "theorems": [
    "Verif.Mir.Kinds.c133_kinds_partial",
    "Verif.Mir.Kinds.c133_single_partial",
    "Verif.Mir.Kinds.c133_refused",
    "Verif.Mir.Kinds.c133_shadow_violated",
    "Verif.Mir.Kinds.c133_shadow_second_violated",
    "Verif.Mir.Kinds.c133_ha_violated"
   ],
   "note": "c133_kinds_partial: any sequence of calls of the 18 kinds with arguments that make sense, with antennas, auto, and, or, clear between them, selects what the specification says, for all records over the reals; c133_single_partial for one call; c133_refused for empty intervals. Partial because the code disagrees: 'shadow' with any diameter raises (c133_shadow_violated) and its second argument, documented as ignored, is the diameter (c133_shadow_second_violated); the hour angle is not brought into one turn (c133_ha_violated). Not modelled: rounding of floats, errors for variables that are missing, dazim and delev (C07), amplitude and window (C131, C132)."
  },
  {
   "property": "C134",
   "status": "partial",
   "theorems": [
    "Verif.Misc.PlotUv.c134_rows_partial",
    "Verif.Misc.PlotUv.c134_aligned_partial",
    "Verif.Misc.PlotUv.c134_missing_violated",
    "Verif.Misc.PlotUv.c134_index_violated",
    "Verif.Misc.PlotUv.c134_lst_violated",
    "Verif.Misc.PlotUv.c134_order_partial",
    "Verif.Misc.PlotUv.c134_order_violated",
    "Verif.Misc.PlotUv.c134_panels",
    "Verif.Misc.PlotUv.c134_second_partial",
    "Verif.Misc.PlotUv.c134_second_linear",
    "Verif.Misc.PlotUv.c134_second_sign_violated",
    "Verif.Misc.PlotUv.c134_axis_partial",
    "Verif.Misc.PlotUv.c134_axis_violated",
    "Verif.Misc.PlotUv.c134_delay_axis",
    "Verif.Misc.PlotUv.c134_bins_violated",
    "Verif.Misc.PlotUv.c134_contiguous_violated",
    "Verif.Misc.PlotUv.c134_delay_peak"
   ],
   "note": "c134_rows_partial and c134_aligned_partial: rows and times for all sequences of integrations; c134_order_partial (single pair of antennas), c134_panels, c134_second_partial, c134_second_linear, c134_axis_partial (even times), c134_delay_axis, c134_delay_peak. Partial because the code disagrees: c134_missing_violated (a missing record shifts the later rows), c134_index_violated (-t with -x divides the number twice), c134_lst_violated, c134_order_violated (substring of -a), c134_second_sign_violated, c134_axis_violated (gaps, --dt, a single time), c134_bins_violated (odd number of channels), c134_contiguous_violated (the test compares a number with GHz). Not modelled: --clean, the fringe transform, the modes of the plot, plots of single channels or times, Python 3 (has_key and sort(cmp=) raise)."
  },
  {
   "property": "C135",
   "status": "partial",
   "theorems": [
    "Verif.Misc.PlotMap.c135_pixels_partial",
    "Verif.Misc.PlotMap.c135_top_violated",
    "Verif.Misc.PlotMap.c135_label_partial",
    "Verif.Misc.PlotMap.c135_epoch_violated",
    "Verif.Misc.PlotMap.c135_mirror_violated",
    "Verif.Misc.PlotMap.c135_pole_violated",
    "Verif.Misc.PlotMap.c135_middle",
    "Verif.Misc.PlotMap.c135_labels_partial",
    "Verif.Misc.PlotMap.c135_one_source_violated",
    "Verif.Misc.PlotMap.c135_click_partial",
    "Verif.Misc.PlotMap.c135_click_mirror_violated",
    "Verif.Misc.PlotMap.c135_click_system_violated",
    "Verif.Misc.PlotMap.c135_round_trip",
    "Verif.Misc.PlotMap.c135_whole",
    "Verif.Misc.PlotMap.c135_click_indices_violated"
   ],
   "note": "c135_pixels_partial: all pixels but the top row, all systems, epochs and centres; c135_round_trip and c135_whole (centres within one turn); c135_label_partial: equatorial labels; c135_labels_partial; c135_click_partial: equatorial pictures. Partial because the code disagrees: the top row shows the other pole (c135_top_violated) and a source at the pole is labelled at the other one (c135_pole_violated); in galactic and ecliptic coordinates labels and clicks are mirrored (c135_mirror_violated, c135_click_mirror_violated); labels are in the epoch of the date, not the picture's (c135_epoch_violated); the value a click prints is read without going over to the map's system (c135_click_system_violated), and not at all if the map has spectral indices (c135_click_indices_violated); a single source stops the script (c135_one_source_violated). Exact reals; ephem's systems are rotations; not modelled: matplotlib-basemap, --mask, the scale of the colours, tick marks."
  },
  {
   "property": "C136",
   "status": "partial",
   "theorems": [
    "Verif.Misc.RfiDiag.c136_dwell_partial",
    "Verif.Misc.RfiDiag.c136_polarisation_violated",
    "Verif.Misc.RfiDiag.c136_sticky_violated",
    "Verif.Misc.RfiDiag.c136_simple",
    "Verif.Misc.RfiDiag.c136_simple_violated",
    "Verif.Misc.RfiDiag.c136_naive_violated",
    "Verif.Misc.RfiDiag.c136_normal",
    "Verif.Misc.RfiDiag.c136_auto_violated",
    "Verif.Misc.RfiDiag.c136_hold_partial",
    "Verif.Misc.RfiDiag.c136_hold_violated",
    "Verif.Misc.RfiDiag.c136_log_partial",
    "Verif.Misc.RfiDiag.c136_log_violated",
    "Verif.Misc.RfiDiag.c136_axis_partial",
    "Verif.Misc.RfiDiag.c136_axis_violated",
    "Verif.Misc.RfiDiag.c136_redshift_violated",
    "Verif.Misc.RfiDiag.c136_chan_violated",
    "Verif.Misc.RfiDiag.c136_panels_violated",
    "Verif.Misc.RfiDiag.c136_best"
   ],
   "note": "c136_dwell_partial: strategy none, any files in which no baseline occurs twice at a time; c136_simple, c136_normal: exactly which samples 'simple' and 'normal' add; c136_hold_partial: data that are real and not negative; c136_log_partial: amplitudes of at least one; c136_best. Partial because the code disagrees: of several polarisations only the last is counted (c136_polarisation_violated); a file ending in r or R switches the strategy off for all later files (c136_sticky_violated); 'simple' counts the edges and misses a burst in all channels (c136_simple_violated); 'naive' judges every sample by the last record read (c136_naive_violated), and 'normal' looks for bad integrations only if the last record read is an autocorrelation (c136_auto_violated); -m shows the largest real part, not amplitude (c136_hold_violated), with -l nothing below one (c136_log_violated); the frequency axis is stretched by one channel (c136_axis_violated); the redshift uses 1427.1 MHz (c136_redshift_violated); -x chan raises (c136_chan_violated); five baselines have no room (c136_panels_violated). gen_rfi_thresh and flag_by_int are parameters (C100)."
  },
  {
   "property": "C137",
   "status": "partial",
   "theorems": [
    "Verif.Misc.PlotImg.c137_image_partial",
    "Verif.Misc.PlotImg.c137_order_violated",
    "Verif.Misc.PlotImg.c137_standard_violated",
    "Verif.Misc.PlotImg.c137_flux",
    "Verif.Misc.PlotImg.c137_limits",
    "Verif.Misc.PlotImg.c137_panels_partial",
    "Verif.Misc.PlotImg.c137_panels_violated",
    "Verif.Misc.PlotImg.c137_batch",
    "Verif.Misc.PlotImg.c137_click_direction",
    "Verif.Misc.PlotImg.c137_click_pixel_partial",
    "Verif.Misc.PlotImg.c137_click_pixel_violated",
    "Verif.Misc.PlotImg.c137_click_position_partial",
    "Verif.Misc.PlotImg.c137_click_position_violated",
    "Verif.Misc.PlotImg.c137_meridians"
   ],
   "note": "c137_image_partial: right ascension and declination the first two axes in either order, any further frequency and polarisation axes; c137_flux, c137_limits, c137_panels_partial, c137_batch, c137_click_direction, c137_click_pixel_partial (square images), c137_click_position_partial (positive d_ra), c137_meridians. Partial because the code disagrees: other orders of axes raise (c137_order_violated), in standard FITS cubes channel numbers are taken as columns (c137_standard_violated), no files raise ZeroDivisionError (c137_panels_violated), pixels of images that are not square are miscounted (c137_click_pixel_violated), positions are mirrored for negative d_ra (c137_click_position_violated). Exact reals; not modelled: -f, the modes phs and imag, matplotlib and basemap beyond the formulas of the orthographic projection."
  },
  {
   "property": "C138",
   "status": "partial",
   "theorems": [
    "Verif.Mir.Views.c138_variable_partial",
    "Verif.Mir.Views.c138_variable_violated",
    "Verif.Mir.Views.c138_column_violated",
    "Verif.Mir.Views.c138_raw_partial",
    "Verif.Mir.Views.c138_flags_accepted_violated",
    "Verif.Mir.Views.c138_flags_violated",
    "Verif.Mir.Views.c138_write",
    "Verif.Mir.Views.c138_grid_partial",
    "Verif.Mir.Views.c138_grid_violated",
    "Verif.Mir.Views.c138_grid_columns_violated"
   ],
   "note": "c138_variable_partial (contiguous arrays of single or double precision numbers), c138_raw_partial (contiguous data, contiguous 32-bit flags, any view of u, v, w), c138_write: UV.write is right for all views and types; c138_grid_partial. Partial because the code disagrees: c138_variable_violated shows that contiguous arrays (and single numbers) are the only ones written right whatever the memory holds, c138_column_violated what is written for a column of a table; no type of flags is refused where long has 64 bits (c138_flags_accepted_violated) and 64-bit flags flag every other sample (c138_flags_violated); grid2D_c transposes into a transposed matrix (c138_grid_violated) and mixes u and v if they are columns (c138_grid_columns_violated). Memories of 32-bit words; 16-bit and 8-bit types and integer and complex variables (c47_int_array, c47_complex) are left out. add2array follows strides (C26)."
  },
  {
   "property": "C139",
   "status": "partial",
   "theorems": [
    "Verif.Mir.Handles.c139_sessions_partial",
    "Verif.Mir.Handles.c139_raised",
    "Verif.Mir.Handles.c139_error_violated",
    "Verif.Mir.Handles.c139_kept_partial",
    "Verif.Mir.Handles.c139_second_partial",
    "Verif.Mir.Handles.c139_overflow_violated",
    "Verif.Mir.Handles.c139_leak_violated",
    "Verif.Mir.Handles.c139_reopen_violated",
    "Verif.Mir.Handles.c139_name_violated"
   ],
   "note": "proved for any program without errors (c139_sessions_partial: 25 at a time, kept apart, disk as closed), that anything not allowed raises and nothing worse (c139_raised), that finished data sets survive any error (c139_kept_partial) and that every second error leaves the rest alone (c139_second_partial); violated: the first, third, ... error shuts all open data sets, deletes those being made and leaves their objects dangling (c139_error_violated), a 26th data set loses a place for good (c139_overflow_violated), a directory that is no data set keeps a place (c139_leak_violated), reopening after an error shares a number (c139_reopen_violated), non-ASCII names can index before the table (c139_name_violated)"
  },
  {
   "property": "C140",
   "status": "partial",
   "theorems": [
    "Verif.Misc.PullAnts.c140_pull_violated",
    "Verif.Misc.PullAnts.c140_mfunc_violated",
    "Verif.Misc.PullAnts.c140_rerun_violated",
    "Verif.Misc.PullAnts.c140_kept_partial"
   ],
   "note": "c140_kept_partial: nothing that exists is changed and nothing but outputs is made. Violated: the script asks for an option that does not exist after making the output, so it stops at the first file without an output and leaves an empty one (c140_pull_violated); running it again makes empty outputs of all files one by one and then ends without complaint (c140_rerun_violated); the choice of records compares numbers with strings and lets nothing through (c140_mfunc_violated). Assumed: init_from_uv does not raise; the output is closed when the interpreter ends"
  },
  {
   "property": "C141",
   "status": "partial",
   "theorems": [
    "Verif.Misc.StokesRotate.c141_round",
    "Verif.Misc.StokesRotate.c141_unknown_violated",
    "Verif.Misc.StokesRotate.c141_rotate_violated"
   ],
   "note": "c141_round: the twelve names, any previous value. Violated: an unknown name is taken without an exception and changes nothing (c141_unknown_violated); the script calls a function that does not exist, so the disk is never changed and it ends normally only if all outputs are already there (c141_rotate_violated)"
  },
  {
   "property": "C142",
   "status": "partial",
   "theorems": [
    "Verif.Special.c142_get",
    "Verif.Special.c142_set_get",
    "Verif.Special.c142_crds_partial",
    "Verif.Special.c142_shadow_violated",
    "Verif.Special.c142_copy_violated"
   ],
   "note": "Reading follows the body and setting is kept over any history; proved also that a set ra hides the body's for good and that an instance before __init__ recurses (violations of the docstring and of copying). Setting Body itself is outside the model."
  },
  {
   "property": "C143",
   "status": "partial",
   "theorems": [
    "Verif.SrcText.c143_columns",
    "Verif.SrcText.c143_injective",
    "Verif.SrcText.c143_before_violated",
    "Verif.SrcText.c143_guard_unused"
   ],
   "note": "Columns, reading back and injectivity for computed sources; a source that has not been computed raises AttributeError (c143_before_violated)."
  },
  {
   "property": "C144",
   "status": "partial",
   "theorems": [
    "Verif.Mir.ReadFiles.c144_rows_partial",
    "Verif.Mir.ReadFiles.c144_gap_violated",
    "Verif.Mir.ReadFiles.c144_freqs_partial",
    "Verif.Mir.ReadFiles.c144_tuning_violated",
    "Verif.Mir.ReadFiles.c144_recast"
   ],
   "note": "c144_rows_partial (complete integrations), c144_freqs_partial, c144_recast; the general claim is violated: c144_gap_violated (a missing baseline shifts the rows), c144_tuning_violated (frequencies of the last file only). sdf as an array (several windows) is not modelled; ragged rows raise in numpy from 1.24 on."
  },
  {
   "property": "C145",
   "status": "partial",
   "theorems": [
    "Verif.Options.c145_cluster",
    "Verif.Options.c145_ambiguous",
    "Verif.Options.c145_line",
    "Verif.Options.c145_standard",
    "Verif.Options.c145_scripts",
    "Verif.Options.c145_reads_partial",
    "Verif.Options.c145_reads_violated",
    "Verif.Options.c145_twice",
    "Verif.Options.c145_abbreviation",
    "Verif.Options.c145_dashes",
    "Verif.Options.c145_refused"
   ],
   "note": "Proved for all command lines of the described form, all selections of standard options and all scripts; that everything read is declared holds for all scripts but pull_ants.py (refant) and inspect_phs_close.py (fixdelay): c145_reads_violated. optparse is modelled from its documented behaviour (the standard library is not in /repo); reading of int/float text is a parameter."
  },
  {
   "property": "C146",
   "status": "partial",
   "theorems": [
    "Verif.Img.c146_cells",
    "Verif.Img.c146_total",
    "Verif.Img.c146_order",
    "Verif.Img.c146_ring",
    "Verif.Img.c146_exact_violated",
    "Verif.Img.c146_negative_violated",
    "Verif.Img.c146_refused",
    "Verif.Img.c146_total_2d",
    "Verif.Img.c146_put"
   ],
   "note": "c146_cells, c146_order, c146_ring, c146_total (1/60), c146_total_2d and c146_put (1/30) by Poisson summation, over exact reals; single precision is not modelled. Violated: the weights are not exactly one (c146_exact_violated), negative footprints are read as huge ones (c146_negative_violated), a buffer without cells divides by zero (c146_refused)."
  },
  {
   "property": "C147",
   "status": "partial",
   "theorems": [
    "Verif.Mir.UvText.c147_ascii",
    "Verif.Mir.UvText.c147_one",
    "Verif.Mir.UvText.c147_lost_violated",
    "Verif.Mir.UvText.c147_half_violated",
    "Verif.Mir.UvText.c147_exactly"
   ],
   "note": "False as stated: c147_exactly says when text comes back (its UTF-8 bytes are one more than its characters; then from any number of copies, c147_one). Plain text gains a NUL per copy (c147_ascii), every other text loses its end or cannot be read (c147_lost_violated), Greek and the like lose half or raise (c147_half_violated). The read of the bytes after their object was released (aipy_compat.h 29-30) is not modelled."
  },
  {
   "property": "C148",
   "status": "partial",
   "theorems": [
    "Verif.Img.c148_image",
    "Verif.Img.c148_source",
    "Verif.Img.c148_brightest",
    "Verif.Img.c148_edge_violated"
   ],
   "note": "c148_image (every pixel of image and bm_image, any samples) and c148_source (any source in any pixel), c148_brightest (no pixel brighter, up to the bounds), over exact reals, by Poisson summation and a bound for the tail beyond the footprint; the bound is loose by a factor of up to about four. Single precision is not modelled. Near the edge the error is as large as what is left of the source: c148_edge_violated (nothing at all is left)."
  },
  {
   "property": "C149",
   "status": "proved",
   "theorems": [
    "Verif.Mir.Uv.Args.c149_stores",
    "Verif.Mir.Uv.Args.c149_only",
    "Verif.Mir.Uv.Args.c149_none",
    "Verif.Mir.Uv.Args.c149_nomask_violated",
    "Verif.Mir.Uv.Args.c149_array",
    "Verif.Mir.Uv.Args.c149_copy",
    "Verif.Mir.Uv.Args.c149_read_back"
   ],
   "note": "The file layer is that of C48 (c149_read_back uses c48_records with corr of type real, so its hypotheses on numbers and names are those of C48). Conversion to complex64 is an arbitrary function; masks on flags or uvw and element types that cannot be converted are not modelled; antennas are not negative. c149_nomask_violated: np.ma.array(d) without a mask raises."
  },
  {
   "property": "C150",
   "status": "partial",
   "theorems": [
    "Verif.Mir.UvList.c150_listed",
    "Verif.Mir.UvList.c150_list",
    "Verif.Mir.UvList.c150_values",
    "Verif.Mir.UvList.c150_stops",
    "Verif.Mir.UvList.c150_files",
    "Verif.Mir.UvList.c150_later_violated"
   ],
   "note": "c150_list: the list without -k; c150_values: -k with keywords that have values (a variable: its value in the first record; an item: what was last assigned from Python); c150_files: several data sets; c150_listed: what can be printed is listed; c150_stops: the first keyword without a value (a variable set after the first record, an item never assigned, a name that is neither) ends the script. c150_later_violated: a variable that gets its first value after the first record is listed, and asking for it is an exception that also keeps the other files from being printed. Missing: how Python shows a value as text; the values of vartable (see C101) and of an obstype written by uvflush (see C71)."
  },
  {
   "property": "C151",
   "status": "partial",
   "theorems": [
    "Verif.Deconv.Args.c151_account1",
    "Verif.Deconv.Args.c151_account2",
    "Verif.Deconv.Args.c151_returns",
    "Verif.Deconv.Args.c151_rejects",
    "Verif.Deconv.Args.c151_cube",
    "Verif.Deconv.Args.c151_cube_violated",
    "Verif.Deconv.Args.c151_broadcast_violated",
    "Verif.Deconv.Args.c151_vanishing_violated",
    "Verif.Deconv.Args.c151_area_violated",
    "Verif.Deconv.Args.c151_complex1",
    "Verif.Deconv.Args.c151_complex2",
    "Verif.Deconv.Args.c151_real1",
    "Verif.Deconv.Args.c151_real2"
   ],
   "note": "c151_account1, c151_account2: what is returned, for one and two axes, given that the product of transforms is a convolution; c151_real1, c151_real2, c151_complex1, c151_complex2: the same with the transforms of the code, nothing assumed; c151_returns: a call that fits returns when the kernel is not zero everywhere inside the area; c151_rejects: without a model, arguments of one or two axes that do not fit are refused. Violated: c151_cube and c151_cube_violated (three axes without a model are accepted and one plane is cleaned), c151_broadcast_violated (with a model and an area, an image of another shape), c151_vanishing_violated (a kernel that is zero inside the area: NaN, or no return without stop_if_div), c151_area_violated (fractions below 1 count as outside). Exact arithmetic, FFTs are the sums that define them; that a zero kernel gives NaN is in the model (loops), from reading the code."
  },
  {
   "property": "C152",
   "status": "partial",
   "theorems": [
    "Verif.Deconv.Fit.c152_passes",
    "Verif.Deconv.Fit.c152_components",
    "Verif.Deconv.Fit.c152_converges",
    "Verif.Deconv.Fit.c152_area",
    "Verif.Deconv.Fit.c152_spike",
    "Verif.Deconv.Fit.c152_never",
    "Verif.Deconv.Fit.c152_offcentre_violated"
   ],
   "note": "c152_passes, c152_components, c152_converges: no bound met, area None, exact numbers, two axes. c152_spike, c152_never: a one-pixel kernel at the origin. c152_offcentre_violated: with a one-pixel kernel away from the origin (a component with negative real part) the model of a two-pixel image grows by at least gain in every pass up to upper, although an exact model lies within the bounds. c152_area: with an area, the raise is multiplied by its integer part, and pixels where that is zero are returned as given. Missing: convergence with areas other than one, and what the bounds do in general."
  },
  {
   "property": "C153",
   "status": "partial",
   "theorems": [
    "Verif.Mir.Uv.Set.c153_set",
    "Verif.Mir.Uv.Set.c153_one_type",
    "Verif.Mir.Uv.Set.c153_override",
    "Verif.Mir.Uv.Set.c153_init",
    "Verif.Mir.Uv.Set.c153_forget_violated",
    "Verif.Mir.Uv.Set.c153_append_violated"
   ],
   "note": "c153_set, c153_one_type, c153_init, c153_override for all histories; the bytes of header items are left open (C53), the limit on the number of variables and the tracking for copyvr (C51) are not modelled. Partial because the code disagrees with what a user expects: c153_forget_violated (init_from_uv discards what add_var declared before), c153_append_violated (no variable of a file opened to append can be assigned to without a new add_var)."
  },
  {
   "property": "C154",
   "status": "partial",
   "theorems": [
    "Verif.Misc.Helm.Fitting.c154_identity",
    "Verif.Misc.Helm.Fitting.c154_step",
    "Verif.Misc.Helm.Fitting.c154_names",
    "Verif.Misc.Helm.Fitting.c154_catalog",
    "Verif.Misc.Helm.Fitting.c154_default_violated",
    "Verif.Misc.Helm.Fitting.c154_empty_violated"
   ],
   "note": "Identity and changed numbers for every index list that is not empty (c154_identity, c154_step), the names (c154_names), and that the catalog makes no empty lists (c154_catalog). c154_default_violated: get_params() raises. c154_empty_violated: with an empty index list, which only the constructor allows, the fit takes the flux for the index."
  },
  {
   "property": "C155",
   "status": "partial",
   "theorems": [
    "Verif.Mir.Override.c155_numeric",
    "Verif.Mir.Override.c155_string",
    "Verif.Mir.Override.c155_untouched",
    "Verif.Mir.Override.c155_opens",
    "Verif.Mir.Override.c155_open_violated",
    "Verif.Mir.Override.c155_obstype_violated",
    "Verif.Mir.Override.c155_updates",
    "Verif.Mir.Override.c155_rewind",
    "Verif.Mir.Override.c155_rewind_string"
   ],
   "note": "c155_numeric, c155_string and c155_untouched for all records; c155_updates, c155_rewind and c155_rewind_string for when they count as updated and for rewinding; c155_opens is the exact condition for opening. c155_open_violated: a floating point item for an integer variable, or a string item of 128 characters or more for any variable, makes the file unreadable. c155_obstype_violated: a variable called obstype is always read as the item that every file with data has. Selection (several blocks per read) is not in this model."
  }
 ]
}