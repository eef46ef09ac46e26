{
 "claims": [
  {
   "property": "C01",
   "status": "proved",
   "theorems": [
    "Verif.C01_collide_exact"
   ],
   "note": "Box intersection, all boxes."
  },
  {
   "property": "C02",
   "status": "proved",
   "theorems": [
    "Verif.C02_count_is_cardinality"
   ],
   "note": "count() against the cardinality of the set of index triples."
  },
  {
   "property": "C03",
   "status": "proved",
   "theorems": [
    "Verif.C03_accepted_iff_tiled",
    "Verif.C03_empty_box_bounds_matter"
   ],
   "note": "find_world followed by world_complete; the checks sit in assert() in the code. Second theorem: bounds of empty boxes extend the world."
  },
  {
   "property": "C04",
   "status": "proved",
   "theorems": [
    "Verif.C04_find_world_tightest",
    "Verif.C04_find_world_total"
   ],
   "note": "All non-empty lists."
  },
  {
   "property": "C05",
   "status": "proved",
   "theorems": [
    "Verif.C05_split_world_tiles",
    "Verif.C05_split_world_subranks"
   ],
   "note": "All worlds and positive grids, also with fewer sub-ranks."
  },
  {
   "property": "C06",
   "status": "proved",
   "theorems": [
    "Verif.C06_split_world_balanced"
   ],
   "note": "All grids."
  },
  {
   "property": "C07",
   "status": "proved",
   "theorems": [
    "Verif.C07_make_procgrid_optimal",
    "Verif.C07_make_procgrid_zero"
   ],
   "note": "n >= 1; n = 0 is the error branch."
  },
  {
   "property": "C08",
   "status": "proved",
   "theorems": [
    "Verif.C08_make_procgrid2d",
    "Verif.C08_grid_layout"
   ],
   "note": "Both branches, throws exactly when nothing fits."
  },
  {
   "property": "C09",
   "status": "partial",
   "theorems": [
    "Verif.C09_false",
    "Verif.C09_min_surface_partial",
    "Verif.C09_all_or_one"
   ],
   "note": "False in general (divisibility test in the middle loop), proved when the ranks are not more than the middle size."
  },
  {
   "property": "C10",
   "status": "partial",
   "theorems": [
    "Verif.C10_overlap_permutation",
    "Verif.C10_overlap_succeeds_partial",
    "Verif.C10_false"
   ],
   "note": "Result is always a permutation; the call fails when an overlap of 2^31 or more wraps in int."
  },
  {
   "property": "C11",
   "status": "proved",
   "theorems": [
    "Verif.C11_make_pencils",
    "Verif.C11_make_pencils_returns"
   ],
   "note": "Whenever it returns; separate theorem for when it returns."
  },
  {
   "property": "C12",
   "status": "proved",
   "theorems": [
    "Verif.C12_make_slabs",
    "Verif.C12_make_slabs_returns"
   ],
   "note": "Whenever it returns; separate theorem for when it returns."
  },
  {
   "property": "C13",
   "status": "proved",
   "theorems": [
    "Verif.C13_directions"
   ],
   "note": "For every returned plan."
  },
  {
   "property": "C14",
   "status": "proved",
   "theorems": [
    "Verif.C14_stages_tile",
    "Verif.C14_planner_defined",
    "Verif.checked_geometry"
   ],
   "note": "Every returned plan; the planner has no undefined behaviour below 2^31 indexes; the debug checks accept only valid geometries."
  },
  {
   "property": "C15",
   "status": "proved",
   "theorems": [
    "Verif.C15_transforms_local"
   ],
   "note": "For every returned plan."
  },
  {
   "property": "C16",
   "status": "proved",
   "theorems": [
    "Verif.C16_chain"
   ],
   "note": "For every returned plan."
  },
  {
   "property": "C17",
   "status": "proved",
   "theorems": [
    "Verif.C17_reorder_contiguous",
    "Verif.C17_unguarded_false"
   ],
   "note": "Under the condition in the quantifier; without it a concrete plan violates the claim."
  },
  {
   "property": "C18",
   "status": "proved",
   "theorems": [
    "Verif.C18_same_order",
    "Verif.C18_unguarded_false"
   ],
   "note": "Under the condition in the quantifier; without it a concrete plan violates the claim."
  },
  {
   "property": "C19",
   "status": "proved",
   "theorems": [
    "Verif.C19_subranks"
   ],
   "note": "For every returned plan."
  },
  {
   "property": "C20",
   "status": "proved",
   "theorems": [
    "Verif.C20_pack_unpack",
    "Verif.C20_small_source_ub"
   ],
   "note": "All sizes, strides and contents; pack then unpack with the same sizes moves exactly the sub-box. Too small a source is undefined behaviour in the model."
  },
  {
   "property": "C21",
   "status": "proved",
   "theorems": [
    "Verif.C21_unpack_transpose",
    "Verif.C21_pack_unpack_transpose"
   ],
   "note": "All six orders of the overlap with all block sizes of the blocked loops."
  },
  {
   "property": "C22",
   "status": "proved",
   "theorems": [
    "Verif.C22_alltoallv",
    "Verif.C22_pointtopoint",
    "Verif.C22_alltoall"
   ],
   "note": "Any two lists of boxes of equal length, no tiling assumed. The padded alltoall uses one common count per group that is at least the size of the intersection."
  },
  {
   "property": "C23",
   "status": "proved",
   "theorems": [
    "Verif.C23_groups_alltoallv",
    "Verif.C23_groups_alltoall"
   ],
   "note": "Any two lists of boxes of equal length."
  },
  {
   "property": "C24",
   "status": "proved",
   "theorems": [
    "Verif.C24_alltoallv",
    "Verif.C24_in_place"
   ],
   "note": "All ranks run the modelled code with messages matched by rank; any element type, batch size, data; out of place and in place."
  },
  {
   "property": "C25",
   "status": "proved",
   "theorems": [
    "Verif.C25_alltoall",
    "Verif.C24_in_place"
   ],
   "note": "As C24 for the padded alltoall."
  },
  {
   "property": "C26",
   "status": "proved",
   "theorems": [
    "Verif.C26_pointtopoint",
    "Verif.C24_in_place"
   ],
   "note": "As C24 for the two point-to-point algorithms and every order of completion of the messages."
  },
  {
   "property": "C27",
   "status": "proved",
   "theorems": [
    "Verif.C27_algorithm_independent"
   ],
   "note": "Arbitrary arrays of sufficient size; identical destinations including the entries behind the data."
  },
  {
   "property": "C28",
   "status": "proved",
   "theorems": [
    "Verif.C28_round_trip"
   ],
   "note": "Arbitrary arrays of sufficient size and any two algorithms."
  },
  {
   "property": "C29",
   "status": "proved",
   "theorems": [
    "Verif.C29_nothing_needed",
    "Verif.C29_transpose"
   ],
   "note": "Null object: both layouts are the same; transpose object: one local pass."
  },
  {
   "property": "C30",
   "status": "proved",
   "theorems": [
    "Verif.C30_in_bounds",
    "Verif.C30_exact_sizes"
   ],
   "note": "Explicit bounds of every access of the communicating reshapes; all kinds of reshape run without an out-of-bounds access on arrays of exactly the documented sizes."
  },
  {
   "property": "C34",
   "status": "proved",
   "theorems": [
    "Verif.C34_stock_fft_is_dft",
    "Verif.C34_small_lengths",
    "Verif.C34_strided",
    "Verif.C34_false"
   ],
   "note": "The guard excludes exactly the lengths whose call graph meets the square of a prime above 1213; C34_false is the witness 1217*1217 where the code computes something else. Exact complex arithmetic."
  },
  {
   "property": "C35",
   "status": "partial",
   "theorems": [
    "Verif.C35_factor_partial",
    "Verif.C35_fails_iff",
    "Verif.C35_false"
   ],
   "note": "The code misses the squares of primes above 1213; the theorem says that these are the only misses."
  },
  {
   "property": "C36",
   "status": "proved",
   "theorems": [
    "Verif.C36_call_graph_fits",
    "Verif.C36_traversal"
   ],
   "note": "All N >= 1; N = 0 is rejected (the factor search would not end)."
  },
  {
   "property": "C37",
   "status": "proved",
   "theorems": [
    "Verif.C37_primitive_root",
    "Verif.C37_mod_pow",
    "Verif.C37_inverse"
   ],
   "note": "All odd primes; unbounded integers."
  },
  {
   "property": "C51",
   "status": "proved",
   "theorems": [
    "Verif.C51_workspaces"
   ],
   "note": "Same guard on the length as C34."
  },
  {
   "property": "C31",
   "status": "proved",
   "theorems": [
    "Verif.C31_each_entry_once",
    "Verif.C31_lines",
    "Verif.C31_stock",
    "Verif.C31_from_real",
    "Verif.C31_to_real"
   ],
   "note": "Any number of lanes (AVX width), any order. C31_stock has the guard of C34 on the length."
  },
  {
   "property": "C32",
   "status": "proved",
   "theorems": [
    "Verif.C32_r2c",
    "Verif.C32_c2r",
    "Verif.C32_stock_r2c",
    "Verif.C32_stock_c2r"
   ],
   "note": "Same layout numbers in the stock and FFTW backends; the stock versions also give the values."
  },
  {
   "property": "C33",
   "status": "partial",
   "theorems": [
    "Verif.C33_fftw_2d_partial",
    "Verif.C33_fftw_3d_partial",
    "Verif.C33_false_2d",
    "Verif.C33_false_3d",
    "Verif.C33_out_of_bounds"
   ],
   "note": "Proved for the standard order (0,1,2). False for other orders: the two and three dimensional FFTW executors ignore the order of the box. Addressing of the FFTW advanced interface as documented by FFTW."
  },
  {
   "property": "C39",
   "status": "proved",
   "theorems": [
    "Verif.C39_line",
    "Verif.C39_round_trip"
   ],
   "note": "One direction with the stock executors, even and odd lengths."
  },
  {
   "property": "C38",
   "status": "proved",
   "theorems": [
    "Verif.C38_complex",
    "Verif.C38_r2c",
    "Verif.C38_real"
   ],
   "note": "Stock backend, exact arithmetic. Guards: SourceHolds (no empty box where data enters, as documented; not needed in place), lengths as in C34, batches of fft3d_r2c as in C43."
  },
  {
   "property": "C40",
   "status": "proved",
   "theorems": [
    "Verif.C40_complex",
    "Verif.C40_real",
    "Verif.C40_fftw_false"
   ],
   "note": "Stock backend, exact arithmetic, any options and message orders. Guards: SourceHolds, lengths as in C34. C40_fftw_false shows that the FFTW backend differs for storage orders other than (0,1,2)."
  },
  {
   "property": "C41",
   "status": "proved",
   "theorems": [
    "Verif.C41_C43_complex",
    "Verif.C41_C43_r2c_forward",
    "Verif.C41_C43_r2c_backward",
    "Verif.C41_C43_trig"
   ],
   "note": "Two objects with any two option values give the same output. Guards as in C40."
  },
  {
   "property": "C42",
   "status": "partial",
   "theorems": [
    "Verif.C42_execution_partial",
    "Verif.C42_runs_iff",
    "Verif.C42_consistent",
    "Verif.C42_false_empty",
    "Verif.C42_false_c2r",
    "Verif.C42_false_merged"
   ],
   "note": "Any kernel, backend and algorithm. True exactly when no rank is in a bad situation (C42_runs_iff); the negations show what happens in the bad ones."
  },
  {
   "property": "C43",
   "status": "partial",
   "theorems": [
    "Verif.C41_C43_complex",
    "Verif.C41_C43_r2c_backward",
    "Verif.C41_C43_trig",
    "Verif.C43_r2c_forward_partial",
    "Verif.C43_r2c_false",
    "Verif.C43_r2c_wrong"
   ],
   "note": "Complete for fft3d and for fft3d_r2c backward. The forward fft3d_r2c is wrong for batches without the last reshape."
  },
  {
   "property": "C44",
   "status": "proved",
   "theorems": [
    "Verif.C44_complex",
    "Verif.C44_r2c",
    "Verif.C44_c2r",
    "Verif.C44_regions"
   ],
   "note": "The regions are disjoint and in bounds for any sizes; no call on all ranks ends in undefined behaviour, with arrays of the documented sizes. Guards as in C40."
  },
  {
   "property": "C52",
   "status": "proved",
   "theorems": [
    "Verif.C40_complex",
    "Verif.C52_real"
   ],
   "note": "C40_complex is stated for both directions. Guards as in C40."
  },
  {
   "property": "C53",
   "status": "proved",
   "theorems": [
    "Verif.C53_forward",
    "Verif.C53_backward"
   ],
   "note": "Guards as in C40; batches of the forward call as in C43."
  },
  {
   "property": "C54",
   "status": "proved",
   "theorems": [
    "Verif.C54_object",
    "Verif.C54_object_r2c",
    "Verif.C54_constructor",
    "Verif.C54_constructor_r2c"
   ],
   "note": "The real-to-complex versions carry the guards of C17 and C18."
  },
  {
   "property": "C45",
   "status": "proved",
   "theorems": [
    "Verif.C45_cos_lines",
    "Verif.C45_workspace",
    "Verif.C45_calls"
   ],
   "note": "One executor on any box (every line, both directions, any workspace contents) and whole calls on all ranks. Exact arithmetic; the length of the extended signal meets the guard of C34."
  },
  {
   "property": "C46",
   "status": "proved",
   "theorems": [
    "Verif.C46_sin_lines",
    "Verif.C45_workspace",
    "Verif.C45_calls"
   ],
   "note": "As C45."
  },
  {
   "property": "C47",
   "status": "proved",
   "theorems": [
    "Verif.C47_cos1_lines",
    "Verif.C45_workspace",
    "Verif.C45_calls",
    "Verif.C48_cos1_single_false"
   ],
   "note": "As C45, lines of at least two entries. With one entry the constructor does not return (C48_cos1_single_false)."
  },
  {
   "property": "C48",
   "status": "proved",
   "theorems": [
    "Verif.C48_roundtrip",
    "Verif.C48_object",
    "Verif.C48_constructor",
    "Verif.C48_cos1_single_false"
   ],
   "note": "Stock backend. Two calls, any layouts, batches and contents of the workspaces. C48_cos1_single_false shows that cosine-I with one index in a direction is undefined behaviour in the constructor."
  },
  {
   "property": "C49",
   "status": "partial",
   "theorems": [
    "Verif.C49_invalid_backend",
    "Verif.C49_created_partial",
    "Verif.C49_created_r2c_partial",
    "Verif.C49_honours_iff",
    "Verif.C49_honours_iff_r2c",
    "Verif.C49_default_options",
    "Verif.C49_default_gpu",
    "Verif.C49_escape_false",
    "Verif.C49_dangling_false",
    "Verif.C49_two_false",
    "Verif.C49_invalid_boxes_false",
    "Verif.C49_direction_false"
   ],
   "note": "The contract is false; the exact condition for valid boxes is proved, and the four ways in which it fails. CPU backends."
  },
  {
   "property": "C50",
   "status": "partial",
   "theorems": [
    "Verif.C50_ignored",
    "Verif.C50_subcomm_partial",
    "Verif.C50_false"
   ],
   "note": "False: the communicator is never read. It holds for the communicator of rank 0."
  },
  {
   "property": "C55",
   "status": "proved",
   "theorems": [
    "Verif.C55_boxes",
    "Verif.C55_complex",
    "Verif.C55_real_forward",
    "Verif.C55_real_backward",
    "Verif.C55_r2c",
    "Verif.C55_kind_false",
    "Verif.C49_created_partial"
   ],
   "note": "Stock backend, exact arithmetic, guards as in C40 and C53. The functions for complex data on an r2c plan are undefined behaviour (C55_kind_false)."
  },
  {
   "property": "C56",
   "status": "proved",
   "theorems": [
    "Verif.C56_pack",
    "Verif.C56_unpack",
    "Verif.C56_unpack_transpose",
    "Verif.C56_overflow",
    "Verif.C56_false",
    "Verif.C56_one_pack",
    "Verif.C56_one_unpack"
   ],
   "note": "CUDA and ROCm below the limit of the index type (the default is int; above it the behaviour is undefined: C56_overflow, C56_false); oneAPI for all sizes."
  },
  {
   "property": "C57",
   "status": "partial",
   "theorems": [
    "Verif.C57_convert",
    "Verif.C57_convert_overflow",
    "Verif.C57_convert_lost",
    "Verif.C57_one_convert",
    "Verif.C57_scale",
    "Verif.C57_scale_complex",
    "Verif.C57_false",
    "Verif.C57_one_scale",
    "Verif.C57_magma",
    "Verif.C57_magma_false"
   ],
   "note": "False for large arrays (C57_false: 2^30 complex entries are not scaled, with ROCm silently; C57_convert_lost); the exact conditions are proved, and it holds for oneAPI."
  },
  {
   "property": "C58",
   "status": "proved",
   "theorems": [
    "Verif.C58_trig",
    "Verif.C58_trig_one"
   ],
   "note": "CUDA, ROCm and oneAPI (no cosine of the first kind). The library is an arbitrary correct one (LibGood); exact arithmetic."
  },
  {
   "property": "C59",
   "status": "partial",
   "theorems": [
    "Verif.C59_one",
    "Verif.C59_two_as_fftw",
    "Verif.C59_three_as_fftw",
    "Verif.C59_two_partial",
    "Verif.C59_three_partial",
    "Verif.C59_false_2d",
    "Verif.C59_false_3d"
   ],
   "note": "One direction: every order. Two and three directions: proved for the standard order, false for others (C59_false_2d, C59_false_3d); for every order the same as FFTW."
  },
  {
   "property": "C60",
   "status": "proved",
   "theorems": [
    "Verif.C60_mkl_forward",
    "Verif.C60_mkl_backward",
    "Verif.C60_cufft_forward",
    "Verif.C60_cufft_backward",
    "Verif.C60_rocfft_forward",
    "Verif.C60_rocfft_backward"
   ],
   "note": "The libraries are trusted to do what their documentation says; the work sizes reported by rocFFT are multiples of the entry size."
  },
  {
   "property": "C61",
   "status": "partial",
   "theorems": [
    "Verif.C61_forward_partial",
    "Verif.C61_backward_partial",
    "Verif.C61_forward_false",
    "Verif.C61_backward_false"
   ],
   "note": "False when the local number of reals is odd, the batch is above 1 and the direction is the first or the last of the order; proved otherwise."
  },
  {
   "property": "C62",
   "status": "proved",
   "theorems": [
    "Verif.C62_complex",
    "Verif.C62_real",
    "Verif.C62_backward_real",
    "Verif.C62_round_trip",
    "Verif.C62_r2c_forward",
    "Verif.C62_r2c_backward",
    "Verif.C59_one",
    "Verif.C59_two_as_fftw",
    "Verif.C59_three_as_fftw"
   ],
   "note": "Exact arithmetic, an arbitrary correct library. Guards: standard order or use_reorder (C40_fftw_false), input boxes not empty or all calls in place (C42_false_merged, C42_false_empty), batches of fft3d_r2c as in C53; cuFFT with batches of real data as in C61."
  },
  {
   "property": "C63",
   "status": "proved",
   "theorems": [
    "Verif.C63_complex",
    "Verif.C63_real",
    "Verif.C63_backward_real"
   ],
   "note": "Guards as in C40 and C62."
  },
  {
   "property": "C64",
   "status": "proved",
   "theorems": [
    "Verif.C64_calls",
    "Verif.C64_round_trip",
    "Verif.C64_constructor"
   ],
   "note": "Exact arithmetic, an arbitrary correct library. Guards: standard order or use_reorder (C40_fftw_false), input boxes not empty or all calls in place (C42_false_merged), two indexes in every direction for fftw_cos1."
  },
  {
   "property": "C65",
   "status": "partial",
   "theorems": [
    "Verif.C65_agree_partial",
    "Verif.C65_ratio",
    "Verif.C65_false"
   ],
   "note": "False: the backward transforms of the stock backend (and of all others but FFTW) are eight times the documented kinds. The results agree for forward without scaling and backward with full scaling; otherwise they differ by exactly 8, 1/8 or their square roots."
  },
  {
   "property": "C66",
   "status": "proved",
   "theorems": [
    "Verif.C66_arithmetic",
    "Verif.C66_quotient",
    "Verif.C66_modulus",
    "Verif.C66_load",
    "Verif.C66_copy_pad",
    "Verif.C66_copy_pad_real",
    "Verif.C66_copy_pad_throws"
   ],
   "note": "Exact arithmetic. The intrinsics are modelled as functions of the lanes after their documentation."
  },
  {
   "property": "C67",
   "status": "proved",
   "theorems": [
    "Verif.C67_c2c_lines",
    "Verif.C67_r2c_lines",
    "Verif.C67_c2r_lines",
    "Verif.C67_c2c_dft",
    "Verif.C67_c2c",
    "Verif.C67_r2c",
    "Verif.C67_c2r"
   ],
   "note": "Exact arithmetic. Nonempty box whose array is there; the equality of builds for the lengths of C34."
  },
  {
   "property": "C68",
   "status": "partial",
   "theorems": [
    "Verif.C68_throws",
    "Verif.C68_never_throws",
    "Verif.C68_forward",
    "Verif.C68_forward_real",
    "Verif.C68_backward",
    "Verif.C68_backward_real_partial",
    "Verif.C68_r2c_forward",
    "Verif.C68_r2c_backward_partial",
    "Verif.C68_trig",
    "Verif.C68_false"
   ],
   "note": "False for fft3d::backward_real and fft3d_r2c::backward: there is no size check, a short vector is read out of bounds. The other methods throw exactly on the ranks with a short vector; results proved for the stock backend in exact arithmetic, guards as in C40, C45, C52, C53."
  },
  {
   "property": "C69",
   "status": "partial",
   "theorems": [
    "Verif.C69_types",
    "Verif.C69_extended",
    "Verif.C69_options",
    "Verif.C69_scale",
    "Verif.C69_objects",
    "Verif.C69_names_false",
    "Verif.C69_names_partial"
   ],
   "note": "False for the names: rocfft_cos1 is called rocfft-sin. The other 21 names are different; types, options and factors proved for all 23 tags, the factors in exact arithmetic."
  },
  {
   "property": "C70",
   "status": "proved",
   "theorems": [
    "Verif.C70_calls",
    "Verif.C70_round_trip",
    "Verif.C70_agree",
    "Verif.C70_mkl_calls",
    "Verif.C70_mkl_round_trip",
    "Verif.C70_mkl_agree"
   ],
   "note": "Exact arithmetic. The FFT of the library on a batch of lines is a hypothesis (LibGood, ExactLibrary); workspaces at least as large as workspace_size; onemkl has no cosine transform of type I."
  },
  {
   "property": "C71",
   "status": "partial",
   "theorems": [
    "Verif.C71_partial",
    "Verif.AllToAll.jobM_bound",
    "Verif.C71_false_alltoall",
    "Verif.C71_false_workspace",
    "Verif.C71_false_transpose",
    "Verif.C71_false_longLong"
   ],
   "note": "The full claim is false. C71_partial: with boxes below 2^31 entries (times the batch, plus the block size of the packing loops), the sum of input and output in the index type, and for alltoall the padded buffer below 2^31, the machine-integer model makes its objects, reports a sufficient size_workspace, succeeds and moves every entry. Negations: alltoall overflows although every box fits and the other algorithms work (C71_false_alltoall; AllToAll.jobM_bound is the general necessary bound); size_workspace overflows with int from 2^30 + 2^30 entries (C71_false_workspace, C71_false_transpose); with long long boxes of 2^31 entries overflow int totals or size_workspace (C71_false_longLong)."
  },
  {
   "property": "C72",
   "status": "proved",
   "theorems": [
    "Verif.C72_device_reshape",
    "Verif.C72_deterministic",
    "Verif.C72_in_bounds",
    "Verif.C72_false_without_wait"
   ],
   "note": "For transports other than `staged false`: GPU-aware MPI, or host buffers with a copy to the host that has ended when it returns (oneAPI waits; CUDA and ROCm rely on cudaMemcpyAsync/hipMemcpyAsync with pageable memory). C72_false_without_wait: without that there is an execution with a wrong result. Machine integers and kernels as in C56/C71; the order guarantees of streams and MPI (Guarantee) are assumptions of the model."
  },
  {
   "property": "C73",
   "status": "proved",
   "theorems": [
    "Verif.C73_no_deadlock",
    "Verif.C73_messages_match",
    "Verif.C73_allowed",
    "Verif.C73_communicators",
    "Verif.C73_false_open_messages"
   ],
   "note": "Guard: the user's own communication is complete between the calls (Piece) and all ranks do the same sequence of actions on one thread. C73_false_open_messages: with a receive of the user open during a transform the messages are mixed up. The guarantees of MPI (MpiMove, MpiReady) are assumptions of the model; C73_allowed shows that the transforms of C41, C54 and C55 are covered."
  },
  {
   "property": "C74",
   "status": "proved",
   "theorems": [
    "Verif.C74_own_speed",
    "Verif.C74_program",
    "Verif.C74_completes",
    "Verif.C74_transforms",
    "Verif.C74_round_trip"
   ],
   "note": "C74_own_speed is for any program of constructed objects and any kernels; C74_program carries over whatever is known of each call in lockstep; C74_transforms and C74_round_trip are the stock backend with the guards of C40, C52, C53 and C38. Assumed of MPI: messages between two ranks on one communicator stay in order. Messages of the user during a transform are excluded (C73_false_open_messages)."
  },
  {
   "property": "C75",
   "status": "proved",
   "theorems": [
    "Verif.C75_values",
    "Verif.C75_no_leak",
    "Verif.C75_exception",
    "Verif.C75_false_queues",
    "Verif.C75_false_memory"
   ],
   "note": "C75_values and C75_no_leak are for all correct programs (DevFine); with oneAPI this includes one context and no failed allocation, and C75_false_queues and C75_false_memory prove that both are needed (findings in DESIGN.md). Copies are taken as complete when the next operation starts."
  },
  {
   "property": "C76",
   "status": "proved",
   "theorems": [
    "Verif.C76_error_bound",
    "Verif.C76_linear",
    "Verif.C76_error_prime",
    "Verif.C76_any_memory",
    "Verif.C76_growth"
   ],
   "note": "Standard model of rounding (relative error u, no overflow or underflow), Complex<F,1> as used without AVX. Lengths as in C34 with prime factors up to 100000, or a prime above with N-1 of that kind. C76_growth shows the quadratic growth for prime lengths (finding in DESIGN.md)."
  },
  {
   "property": "C77",
   "status": "proved",
   "theorems": [
    "Verif.C77_complex",
    "Verif.C77_real",
    "Verif.C77_backward_real",
    "Verif.C77_r2c",
    "Verif.C77_r2c_backward",
    "Verif.C77_round_trip",
    "Verif.C77_round_trip_r2c"
   ],
   "note": "Standard model of rounding as in C76, executors without AVX. Lengths with prime factors up to 100000 that the factor search can reach (no square of a prime above 1213). Batches of forward r2c calls with the guard of C53."
  },
  {
   "property": "C78",
   "status": "proved",
   "theorems": [
    "Verif.C78_bits",
    "Verif.C78_options",
    "Verif.C78_options_r2c",
    "Verif.C78_float",
    "Verif.C78_float_r2c",
    "Verif.C78_false_pencils",
    "Verif.C78_false_ranks"
   ],
   "note": "Executors without AVX. The negative part is a finding (DESIGN.md): bits depend on use_pencils and on the number of ranks through the order of the directions."
  },
  {
   "property": "C79",
   "status": "proved",
   "theorems": [
    "Verif.C79_object",
    "Verif.C79_object_r2c",
    "Verif.C79_complex",
    "Verif.C79_forward_r2c",
    "Verif.C79_backward_r2c",
    "Verif.C79_false_batch",
    "Verif.C79_false_large_box"
   ],
   "note": "Setup (with the planner of C81) and calls. The sine and cosine executors of the stock backend and the inside of the one-dimensional transforms are not covered. The negative part is a finding (DESIGN.md)."
  },
  {
   "property": "C80",
   "status": "partial",
   "theorems": [
    "Verif.C80_created",
    "Verif.C80_created_r2c",
    "Verif.C80_arguments",
    "Verif.C80_direction",
    "Verif.C80_forward_checks",
    "Verif.C80_backward_checks_partial",
    "Verif.C80_types",
    "Verif.C80_all_ranks",
    "Verif.C80_complex_partial",
    "Verif.C80_real_forward",
    "Verif.C80_real_backward_partial",
    "Verif.C80_forward_r2c",
    "Verif.C80_split_world",
    "Verif.C80_false_failure",
    "Verif.C80_false_backward",
    "Verif.C80_false_backward_r2c",
    "Verif.C80_false_kind",
    "Verif.C80_false_memory",
    "Verif.C80_false_workspace",
    "Verif.C80_false_strided",
    "Verif.C80_false_split_world",
    "Verif.C80_false_split_grid"
   ],
   "note": "The full statement is false (findings in DESIGN.md): proved for the forward direction with contiguous arrays, and for the backward direction when the two boxes of each rank have the same size. split_world only for grids that divide the world and with the missing attribute."
  },
  {
   "property": "C81",
   "status": "proved",
   "theorems": [
    "Verif.C81_plan",
    "Verif.C81_asserts",
    "Verif.C81_split",
    "Verif.C81_surface",
    "Verif.C81_false_ranks",
    "Verif.C81_false_world",
    "Verif.C81_false_surface"
   ],
   "note": "The limits are part of the statement and sharp in the named cases; the negative part is a finding (DESIGN.md). Counters over ranks are not checked."
  },
  {
   "property": "C82",
   "status": "proved",
   "theorems": [
    "Verif.C82_complex",
    "Verif.C82_r2c",
    "Verif.C82_library",
    "Verif.C82_library_r2c",
    "Verif.C82_energy",
    "Verif.C82_library_energy",
    "Verif.C82_benchmark",
    "Verif.C82_library_benchmark",
    "Verif.C82_false_benchmark"
   ],
   "note": "Exact numbers, under the hypotheses of C40, C53 and C62. The negative part is a finding (DESIGN.md)."
  },
  {
   "property": "C83",
   "status": "proved",
   "theorems": [
    "Verif.C83_runs",
    "Verif.C83_lifetimes",
    "Verif.C83_no_leak",
    "Verif.C83_ranks",
    "Verif.C83_objects",
    "Verif.C83_error_code",
    "Verif.C83_boxes",
    "Verif.C83_options",
    "Verif.C83_constructor",
    "Verif.C83_complex",
    "Verif.C83_real",
    "Verif.C83_r2c",
    "Verif.C83_false_copy",
    "Verif.C83_false_null",
    "Verif.C83_false_leak"
   ],
   "note": "For the programs that follow the stated rules; the theorems named false show what happens outside of them (DESIGN.md)."
  },
  {
   "property": "C84",
   "status": "proved",
   "theorems": [
    "Verif.C84_complex",
    "Verif.C84_real",
    "Verif.C84_backward_real",
    "Verif.C84_r2c_forward",
    "Verif.C84_r2c_backward",
    "Verif.C84_trig",
    "Verif.C84_library",
    "Verif.C84_waves"
   ],
   "note": "Guards as in C40, C45, C52, C53, C62, C64. The workspace may be changed everywhere and is not covered."
  },
  {
   "property": "C85",
   "status": "partial",
   "theorems": [
    "Verif.C85_boxes",
    "Verif.C85_complex_partial",
    "Verif.C85_trig_partial",
    "Verif.C85_r2c_partial",
    "Verif.C85_program_partial",
    "Verif.C85_detects",
    "Verif.C85_detects_r2c",
    "Verif.C85_false_warmup",
    "Verif.C85_false_batch",
    "Verif.C85_false_grid",
    "Verif.C85_false_default"
   ],
   "note": "The claim is false for batches with an output box larger than the input box of the same rank, for the batch 0 and for grids with negative numbers (the theorems named false); proved for all other cases. In the r2c benchmark additionally the guards of C42 and C43."
  },
  {
   "property": "C86",
   "status": "proved",
   "theorems": [
    "Verif.C86_calls",
    "Verif.C86_round_trip"
   ],
   "note": "Standard model of rounding as in C76, executors without AVX. Extended lengths with prime factors up to 100000 that the factor search can reach (no square of a prime above 1213)."
  },
  {
   "property": "C87",
   "status": "proved",
   "theorems": [
    "Verif.C87_entries",
    "Verif.C87_layout",
    "Verif.C87_linear",
    "Verif.C87_shift",
    "Verif.C87_conjugate",
    "Verif.C87_real",
    "Verif.C87_reverse",
    "Verif.C87_separable",
    "Verif.C87_impulse",
    "Verif.C87_back_entries",
    "Verif.C87_back_layout",
    "Verif.C87_back_linear",
    "Verif.C87_back_parts",
    "Verif.C87_back_half"
   ],
   "note": "The calls carry the guards of C40, C52, C53 and C62 (lengths the stock factor search can handle; for libraries without use_reorder the standard storage order; batches of fft3d_r2c forward only if the last stage reshapes). Exact arithmetic; for rounding see C76-C78 and C86."
  },
  {
   "property": "C88",
   "status": "partial",
   "theorems": [
    "Verif.C88_file",
    "Verif.C88_records",
    "Verif.C88_times",
    "Verif.C88_complete",
    "Verif.C88_call",
    "Verif.C88_reshapes",
    "Verif.C88_program",
    "Verif.C88_messages_partial",
    "Verif.C88_false_name",
    "Verif.C88_false_no_init",
    "Verif.C88_false_reshape_copy",
    "Verif.C88_false_x3",
    "Verif.C88_false_staged",
    "Verif.C88_false_unpacking"
   ],
   "note": "Proved: the contents of the file, order, nesting, completeness, coverage of all the operations. False in the code: the documented name of the file, the sizes of isend without GPU-aware MPI for batches, the rank in the name of the unpacking, and two misleading names. C88_messages_partial has the exact guards for the names of the messages."
  },
  {
   "property": "C89",
   "status": "proved",
   "theorems": [
    "Verif.C89_volume",
    "Verif.C89_alltoall",
    "Verif.C89_silent",
    "Verif.C89_messages",
    "Verif.C89_blocks",
    "Verif.C89_false_alltoall"
   ],
   "note": "Exact amounts for point-to-point and MPI_Alltoallv, exact block size and a lower bound for MPI_Alltoall; C89_false_alltoall shows that MPI_Alltoall sends more than what changes its owner."
  },
  {
   "property": "C90",
   "status": "partial",
   "theorems": [
    "Verif.C90_defined",
    "Verif.C90_used_right_partial",
    "Verif.C90_given_back_partial",
    "Verif.C90_value_partial",
    "Verif.C90_no_deadlock_partial",
    "Verif.C90_false_magma",
    "Verif.C90_false_magma_use",
    "Verif.C90_false_magma_leak"
   ],
   "note": "Proved for all programs without a queue of MAGMA, and with it for programs that move no plan. False with MAGMA on a GPU: moving any plan destroys its queue twice, lets a destroyed queue be used, and assignment leaks a queue."
  },
  {
   "property": "C91",
   "status": "partial",
   "theorems": [
    "Verif.C91_same_program",
    "Verif.C91_data_independent",
    "Verif.C91_bound_partial",
    "Verif.C91_nlogn_partial",
    "Verif.C91_exact_pow4",
    "Verif.C91_exact_prime",
    "Verif.C91_false_rader",
    "Verif.C91_false_nlogn"
   ],
   "note": "Proved for the lengths that do not reach Rader's algorithm, with constants in terms of the prime factors. False in general: for primes above 100000 the convolution of Rader's algorithm is a double loop that evaluates a sine and a cosine in each step."
  },
  {
   "property": "C92",
   "status": "partial",
   "theorems": [
    "Verif.C92_shared_partial",
    "Verif.C92_one_at_a_time",
    "Verif.C92_false_first_call",
    "Verif.C92_false_work_memory"
   ],
   "note": "Proved for powers of two and three and primes up to 100000 after the first call, and for all lengths if one thread calls at a time. False otherwise: the first calls race for the plan, later calls share the work memory of the call graph."
  },
  {
   "property": "C93",
   "status": "proved",
   "theorems": [
    "Verif.C93_entries",
    "Verif.C93_layout",
    "Verif.C93_linear",
    "Verif.C93_turned",
    "Verif.C93_alternating",
    "Verif.C93_sine_cosine",
    "Verif.C93_sine_cosine_back",
    "Verif.C93_separable"
   ],
   "note": "For the stock backend, MKL, cuFFT and rocFFT in real arithmetic, under the guards of C45 and C70; FFTW's family is C64."
  },
  {
   "property": "C94",
   "status": "partial",
   "theorems": [
    "Verif.C94_counts",
    "Verif.C94_product",
    "Verif.C94_split",
    "Verif.C94_plan_partial",
    "Verif.C94_dash",
    "Verif.C94_printed",
    "Verif.C94_false_slabs",
    "Verif.C94_false_dash",
    "Verif.C94_false_dash_moved"
   ],
   "note": "Proved for all plans with pencils, and for plans with slabs when every direction has at least as many indexes as there are ranks. False for slabs in shorter worlds. The dash is printed wherever the bounds stay the same, but also at transpositions and at moves between ranks."
  },
  {
   "property": "C95",
   "status": "proved",
   "theorems": [
    "Verif.C95_complex",
    "Verif.C95_convolution",
    "Verif.C95_r2c",
    "Verif.C95_benchmark",
    "Verif.C95_false_benchmark"
   ],
   "note": "Standard model of rounding and lengths as in C77. The guards are those of C77 and C82; real data with fft3d_r2c is out of place."
  },
  {
   "property": "C96",
   "status": "proved",
   "theorems": [
    "Verif.C96_r2c",
    "Verif.C96_library_r2c",
    "Verif.C96_real",
    "Verif.C96_library_real",
    "Verif.C96_weights_needed",
    "Verif.C96_library_weights_needed"
   ],
   "note": "Exact numbers, under the hypotheses of C40, C53 and C62 (batches above 1 of an fft3d_r2c need the reshape behind the first executor, C43)."
  },
  {
   "property": "C97",
   "status": "proved",
   "theorems": [
    "Verif.C97_inner",
    "Verif.C97_unitary",
    "Verif.C97_half"
   ],
   "note": "Exact numbers, for the calls covered by C87 (hypotheses of C40, C53 and C62). C97_half is about the real part: nothing is claimed for the imaginary part of the weighted sum (by hand, not in Lean: length 3, data 1,0,0 and 0,1,0, where it is not zero)."
  }
 ]
}