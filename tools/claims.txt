C01 proved
C01_collide_exact
Box intersection, all boxes.

C02 proved
C02_count_is_cardinality
count() against the cardinality of the set of index triples.

C03 proved
C03_accepted_iff_tiled C03_empty_box_bounds_matter
find_world followed by world_complete; the checks sit in assert() in the code. Second theorem: bounds of empty boxes extend the world.

C04 proved
C04_find_world_tightest C04_find_world_total
All non-empty lists.

C05 proved
C05_split_world_tiles C05_split_world_subranks
All worlds and positive grids, also with fewer sub-ranks.

C06 proved
C06_split_world_balanced
All grids.

C07 proved
C07_make_procgrid_optimal C07_make_procgrid_zero
n >= 1; n = 0 is the error branch.

C08 proved
C08_make_procgrid2d C08_grid_layout
Both branches, throws exactly when nothing fits.

C09 partial
C09_false C09_min_surface_partial C09_all_or_one
False in general (divisibility test in the middle loop), proved when the ranks are not more than the middle size.

C10 partial
C10_overlap_permutation C10_overlap_succeeds_partial C10_false
Result is always a permutation; the call fails when an overlap of 2^31 or more wraps in int.

C11 proved
C11_make_pencils C11_make_pencils_returns
Whenever it returns; separate theorem for when it returns.

C12 proved
C12_make_slabs C12_make_slabs_returns
Whenever it returns; separate theorem for when it returns.

C13 proved
C13_directions
For every returned plan.

C14 proved
C14_stages_tile C14_planner_defined checked_geometry
Every returned plan; the planner has no undefined behaviour below 2^31 indexes; the debug checks accept only valid geometries.

C15 proved
C15_transforms_local
For every returned plan.

C16 proved
C16_chain
For every returned plan.

C17 proved
C17_reorder_contiguous C17_unguarded_false
Under the condition in the quantifier; without it a concrete plan violates the claim.

C18 proved
C18_same_order C18_unguarded_false
Under the condition in the quantifier; without it a concrete plan violates the claim.

C19 proved
C19_subranks
For every returned plan.

C20 proved
C20_pack_unpack C20_small_source_ub
All sizes, strides and contents; pack then unpack with the same sizes moves exactly the sub-box. Too small a source is undefined behaviour in the model.

C21 proved
C21_unpack_transpose C21_pack_unpack_transpose
All six orders of the overlap with all block sizes of the blocked loops.

C22 proved
C22_alltoallv C22_pointtopoint C22_alltoall
Any two lists of boxes of equal length, no tiling assumed. The padded alltoall uses one common count per group that is at least the size of the intersection.

C23 proved
C23_groups_alltoallv C23_groups_alltoall
Any two lists of boxes of equal length.

C24 proved
C24_alltoallv C24_in_place
All ranks run the modelled code with messages matched by rank; any element type, batch size, data; out of place and in place.

C25 proved
C25_alltoall C24_in_place
As C24 for the padded alltoall.

C26 proved
C26_pointtopoint C24_in_place
As C24 for the two point-to-point algorithms and every order of completion of the messages.

C27 proved
C27_algorithm_independent
Arbitrary arrays of sufficient size; identical destinations including the entries behind the data.

C28 proved
C28_round_trip
Arbitrary arrays of sufficient size and any two algorithms.

C29 proved
C29_nothing_needed C29_transpose
Null object: both layouts are the same; transpose object: one local pass.

C30 proved
C30_in_bounds C30_exact_sizes
Explicit bounds of every access of the communicating reshapes; all kinds of reshape run without an out-of-bounds access on arrays of exactly the documented sizes.

C34 proved
C34_stock_fft_is_dft C34_small_lengths C34_strided C34_false
The guard excludes exactly the lengths whose call graph meets the square of a prime above 1213; C34_false is the witness 1217*1217 where the code computes something else. Exact complex arithmetic.

C35 partial
C35_factor_partial C35_fails_iff C35_false
The code misses the squares of primes above 1213; the theorem says that these are the only misses.

C36 proved
C36_call_graph_fits C36_traversal
All N >= 1; N = 0 is rejected (the factor search would not end).

C37 proved
C37_primitive_root C37_mod_pow C37_inverse
All odd primes; unbounded integers.

C51 proved
C51_workspaces
Same guard on the length as C34.

C31 proved
C31_each_entry_once C31_lines C31_stock C31_from_real C31_to_real
Any number of lanes (AVX width), any order. C31_stock has the guard of C34 on the length.

C32 proved
C32_r2c C32_c2r C32_stock_r2c C32_stock_c2r
Same layout numbers in the stock and FFTW backends; the stock versions also give the values.

C33 partial
C33_fftw_2d_partial C33_fftw_3d_partial C33_false_2d C33_false_3d C33_out_of_bounds
Proved for the standard order (0,1,2). False for other orders: the two and three dimensional FFTW executors ignore the order of the box. Addressing of the FFTW advanced interface as documented by FFTW.

C39 proved
C39_line C39_round_trip
One direction with the stock executors, even and odd lengths.

C38 proved
C38_complex C38_r2c C38_real
Stock backend, exact arithmetic. Guards: SourceHolds (no empty box where data enters, as documented; not needed in place), lengths as in C34, batches of fft3d_r2c as in C43.

C40 proved
C40_complex C40_real C40_fftw_false
Stock backend, exact arithmetic, any options and message orders. Guards: SourceHolds, lengths as in C34. C40_fftw_false shows that the FFTW backend differs for storage orders other than (0,1,2).

C41 proved
C41_C43_complex C41_C43_r2c_forward C41_C43_r2c_backward C41_C43_trig
Two objects with any two option values give the same output. Guards as in C40.

C42 partial
C42_execution_partial C42_runs_iff C42_consistent C42_false_empty C42_false_c2r C42_false_merged
Any kernel, backend and algorithm. True exactly when no rank is in a bad situation (C42_runs_iff); the negations show what happens in the bad ones.

C43 partial
C41_C43_complex C41_C43_r2c_backward C41_C43_trig C43_r2c_forward_partial C43_r2c_false C43_r2c_wrong
Complete for fft3d and for fft3d_r2c backward. The forward fft3d_r2c is wrong for batches without the last reshape.

C44 proved
C44_complex C44_r2c C44_c2r C44_regions
The regions are disjoint and in bounds for any sizes; no call on all ranks ends in undefined behaviour, with arrays of the documented sizes. Guards as in C40.

C52 proved
C40_complex C52_real
C40_complex is stated for both directions. Guards as in C40.

C53 proved
C53_forward C53_backward
Guards as in C40; batches of the forward call as in C43.

C54 proved
C54_object C54_object_r2c C54_constructor C54_constructor_r2c
The real-to-complex versions carry the guards of C17 and C18.

C45 proved
C45_cos_lines C45_workspace C45_calls
One executor on any box (every line, both directions, any workspace contents) and whole calls on all ranks. Exact arithmetic; the length of the extended signal meets the guard of C34.

C46 proved
C46_sin_lines C45_workspace C45_calls
As C45.

C47 proved
C47_cos1_lines C45_workspace C45_calls C48_cos1_single_false
As C45, lines of at least two entries. With one entry the constructor does not return (C48_cos1_single_false).

C48 proved
C48_roundtrip C48_object C48_constructor C48_cos1_single_false
Stock backend. Two calls, any layouts, batches and contents of the workspaces. C48_cos1_single_false shows that cosine-I with one index in a direction is undefined behaviour in the constructor.

C49 partial
C49_invalid_backend C49_created_partial C49_created_r2c_partial C49_honours_iff C49_honours_iff_r2c C49_default_options C49_default_gpu C49_escape_false C49_dangling_false C49_two_false C49_invalid_boxes_false C49_direction_false
The contract is false; the exact condition for valid boxes is proved, and the four ways in which it fails. CPU backends.

C50 partial
C50_ignored C50_subcomm_partial C50_false
False: the communicator is never read. It holds for the communicator of rank 0.

C55 proved
C55_boxes C55_complex C55_real_forward C55_real_backward C55_r2c C55_kind_false C49_created_partial
Stock backend, exact arithmetic, guards as in C40 and C53. The functions for complex data on an r2c plan are undefined behaviour (C55_kind_false).

C56 proved
C56_pack C56_unpack C56_unpack_transpose C56_overflow C56_false C56_one_pack C56_one_unpack
CUDA and ROCm below the limit of the index type (the default is int; above it the behaviour is undefined: C56_overflow, C56_false); oneAPI for all sizes.

C57 partial
C57_convert C57_convert_overflow C57_convert_lost C57_one_convert C57_scale C57_scale_complex C57_false C57_one_scale C57_magma C57_magma_false
False for large arrays (C57_false: 2^30 complex entries are not scaled, with ROCm silently; C57_convert_lost); the exact conditions are proved, and it holds for oneAPI.

C58 proved
C58_trig C58_trig_one
CUDA, ROCm and oneAPI (no cosine of the first kind). The library is an arbitrary correct one (LibGood); exact arithmetic.

C59 partial
C59_one C59_two_as_fftw C59_three_as_fftw C59_two_partial C59_three_partial C59_false_2d C59_false_3d
One direction: every order. Two and three directions: proved for the standard order, false for others (C59_false_2d, C59_false_3d); for every order the same as FFTW.

C60 proved
C60_mkl_forward C60_mkl_backward C60_cufft_forward C60_cufft_backward C60_rocfft_forward C60_rocfft_backward
The libraries are trusted to do what their documentation says; the work sizes reported by rocFFT are multiples of the entry size.

C61 partial
C61_forward_partial C61_backward_partial C61_forward_false C61_backward_false
False when the local number of reals is odd, the batch is above 1 and the direction is the first or the last of the order; proved otherwise.

C62 proved
C62_complex C62_real C62_backward_real C62_round_trip C62_r2c_forward C62_r2c_backward C59_one C59_two_as_fftw C59_three_as_fftw
Exact arithmetic, an arbitrary correct library. Guards: standard order or use_reorder (C40_fftw_false), input boxes not empty or all calls in place (C42_false_merged, C42_false_empty), batches of fft3d_r2c as in C53; cuFFT with batches of real data as in C61.

C63 proved
C63_complex C63_real C63_backward_real
Guards as in C40 and C62.

C64 proved
C64_calls C64_round_trip C64_constructor
Exact arithmetic, an arbitrary correct library. Guards: standard order or use_reorder (C40_fftw_false), input boxes not empty or all calls in place (C42_false_merged), two indexes in every direction for fftw_cos1.

C65 partial
C65_agree_partial C65_ratio C65_false
False: the backward transforms of the stock backend (and of all others but FFTW) are eight times the documented kinds. The results agree for forward without scaling and backward with full scaling; otherwise they differ by exactly 8, 1/8 or their square roots.

C66 proved
C66_arithmetic C66_quotient C66_modulus C66_load C66_copy_pad C66_copy_pad_real C66_copy_pad_throws
Exact arithmetic. The intrinsics are modelled as functions of the lanes after their documentation.

C67 proved
C67_c2c_lines C67_r2c_lines C67_c2r_lines C67_c2c_dft C67_c2c C67_r2c C67_c2r
Exact arithmetic. Nonempty box whose array is there; the equality of builds for the lengths of C34.

C68 partial
C68_throws C68_never_throws C68_forward C68_forward_real C68_backward C68_backward_real_partial C68_r2c_forward C68_r2c_backward_partial C68_trig C68_false
False for fft3d::backward_real and fft3d_r2c::backward: there is no size check, a short vector is read out of bounds. The other methods throw exactly on the ranks with a short vector; results proved for the stock backend in exact arithmetic, guards as in C40, C45, C52, C53.

C69 partial
C69_types C69_extended C69_options C69_scale C69_objects C69_names_false C69_names_partial
False for the names: rocfft_cos1 is called rocfft-sin. The other 21 names are different; types, options and factors proved for all 23 tags, the factors in exact arithmetic.

C70 proved
C70_calls C70_round_trip C70_agree C70_mkl_calls C70_mkl_round_trip C70_mkl_agree
Exact arithmetic. The FFT of the library on a batch of lines is a hypothesis (LibGood, ExactLibrary); workspaces at least as large as workspace_size; onemkl has no cosine transform of type I.

C71 partial
C71_partial AllToAll.jobM_bound C71_false_alltoall C71_false_workspace C71_false_transpose C71_false_longLong
The full claim is false. C71_partial: with boxes below 2^31 entries (times the batch, plus the block size of the packing loops), the sum of input and output in the index type, and for alltoall the padded buffer below 2^31, the machine-integer model makes its objects, reports a sufficient size_workspace, succeeds and moves every entry. Negations: alltoall overflows although every box fits and the other algorithms work (C71_false_alltoall; AllToAll.jobM_bound is the general necessary bound); size_workspace overflows with int from 2^30 + 2^30 entries (C71_false_workspace, C71_false_transpose); with long long boxes of 2^31 entries overflow int totals or size_workspace (C71_false_longLong).

C72 proved
C72_device_reshape C72_deterministic C72_in_bounds C72_false_without_wait
For transports other than `staged false`: GPU-aware MPI, or host buffers with a copy to the host that has ended when it returns (oneAPI waits; CUDA and ROCm rely on cudaMemcpyAsync/hipMemcpyAsync with pageable memory). C72_false_without_wait: without that there is an execution with a wrong result. Machine integers and kernels as in C56/C71; the order guarantees of streams and MPI (Guarantee) are assumptions of the model.

C73 proved
C73_no_deadlock C73_messages_match C73_allowed C73_communicators C73_false_open_messages
Guard: the user's own communication is complete between the calls (Piece) and all ranks do the same sequence of actions on one thread. C73_false_open_messages: with a receive of the user open during a transform the messages are mixed up. The guarantees of MPI (MpiMove, MpiReady) are assumptions of the model; C73_allowed shows that the transforms of C41, C54 and C55 are covered.

C74 proved
C74_own_speed C74_program C74_completes C74_transforms C74_round_trip
C74_own_speed is for any program of constructed objects and any kernels; C74_program carries over whatever is known of each call in lockstep; C74_transforms and C74_round_trip are the stock backend with the guards of C40, C52, C53 and C38. Assumed of MPI: messages between two ranks on one communicator stay in order. Messages of the user during a transform are excluded (C73_false_open_messages).

C75 proved
C75_values C75_no_leak C75_exception C75_false_queues C75_false_memory
C75_values and C75_no_leak are for all correct programs (DevFine); with oneAPI this includes one context and no failed allocation, and C75_false_queues and C75_false_memory prove that both are needed (findings in DESIGN.md). Copies are taken as complete when the next operation starts.

C76 proved
C76_error_bound C76_linear C76_error_prime C76_any_memory C76_growth
Standard model of rounding (relative error u, no overflow or underflow), Complex<F,1> as used without AVX. Lengths as in C34 with prime factors up to 100000, or a prime above with N-1 of that kind. C76_growth shows the quadratic growth for prime lengths (finding in DESIGN.md).

C77 proved
C77_complex C77_real C77_backward_real C77_r2c C77_r2c_backward C77_round_trip C77_round_trip_r2c
Standard model of rounding as in C76, executors without AVX. Lengths with prime factors up to 100000 that the factor search can reach (no square of a prime above 1213). Batches of forward r2c calls with the guard of C53.

C78 proved
C78_bits C78_options C78_options_r2c C78_float C78_float_r2c C78_false_pencils C78_false_ranks
Executors without AVX. The negative part is a finding (DESIGN.md): bits depend on use_pencils and on the number of ranks through the order of the directions.

C79 proved
C79_object C79_object_r2c C79_complex C79_forward_r2c C79_backward_r2c C79_false_batch C79_false_large_box
Setup (with the planner of C81) and calls. The sine and cosine executors of the stock backend and the inside of the one-dimensional transforms are not covered. The negative part is a finding (DESIGN.md).

C80 partial
C80_created C80_created_r2c C80_arguments C80_direction C80_forward_checks C80_backward_checks_partial C80_types C80_all_ranks C80_complex_partial C80_real_forward C80_real_backward_partial C80_forward_r2c C80_split_world C80_false_failure C80_false_backward C80_false_backward_r2c C80_false_kind C80_false_memory C80_false_workspace C80_false_strided C80_false_split_world C80_false_split_grid
The full statement is false (findings in DESIGN.md): proved for the forward direction with contiguous arrays, and for the backward direction when the two boxes of each rank have the same size. split_world only for grids that divide the world and with the missing attribute.

C81 proved
C81_plan C81_asserts C81_split C81_surface C81_false_ranks C81_false_world C81_false_surface
The limits are part of the statement and sharp in the named cases; the negative part is a finding (DESIGN.md). Counters over ranks are not checked.

C82 proved
C82_complex C82_r2c C82_library C82_library_r2c C82_energy C82_library_energy C82_benchmark C82_library_benchmark C82_false_benchmark
Exact numbers, under the hypotheses of C40, C53 and C62. The negative part is a finding (DESIGN.md).

C83 proved
C83_runs C83_lifetimes C83_no_leak C83_ranks C83_objects C83_error_code C83_boxes C83_options C83_constructor C83_complex C83_real C83_r2c C83_false_copy C83_false_null C83_false_leak
For the programs that follow the stated rules; the theorems named false show what happens outside of them (DESIGN.md).

C84 proved
C84_complex C84_real C84_backward_real C84_r2c_forward C84_r2c_backward C84_trig C84_library C84_waves
Guards as in C40, C45, C52, C53, C62, C64. The workspace may be changed everywhere and is not covered.

C85 partial
C85_boxes C85_complex_partial C85_trig_partial C85_r2c_partial C85_program_partial C85_detects C85_detects_r2c C85_false_warmup C85_false_batch C85_false_grid C85_false_default
The claim is false for batches with an output box larger than the input box of the same rank, for the batch 0 and for grids with negative numbers (the theorems named false); proved for all other cases. In the r2c benchmark additionally the guards of C42 and C43.

C86 proved
C86_calls C86_round_trip
Standard model of rounding as in C76, executors without AVX. Extended lengths with prime factors up to 100000 that the factor search can reach (no square of a prime above 1213).

C87 proved
C87_entries C87_layout C87_linear C87_shift C87_conjugate C87_real C87_reverse C87_separable C87_impulse C87_back_entries C87_back_layout C87_back_linear C87_back_parts C87_back_half
The calls carry the guards of C40, C52, C53 and C62 (lengths the stock factor search can handle; for libraries without use_reorder the standard storage order; batches of fft3d_r2c forward only if the last stage reshapes). Exact arithmetic; for rounding see C76-C78 and C86.

C88 partial
C88_file C88_records C88_times C88_complete C88_call C88_reshapes C88_program C88_messages_partial C88_false_name C88_false_no_init C88_false_reshape_copy C88_false_x3 C88_false_staged C88_false_unpacking
Proved: the contents of the file, order, nesting, completeness, coverage of all the operations. False in the code: the documented name of the file, the sizes of isend without GPU-aware MPI for batches, the rank in the name of the unpacking, and two misleading names. C88_messages_partial has the exact guards for the names of the messages.

C89 proved
C89_volume C89_alltoall C89_silent C89_messages C89_blocks C89_false_alltoall
Exact amounts for point-to-point and MPI_Alltoallv, exact block size and a lower bound for MPI_Alltoall; C89_false_alltoall shows that MPI_Alltoall sends more than what changes its owner.

C90 partial
C90_defined C90_used_right_partial C90_given_back_partial C90_value_partial C90_no_deadlock_partial C90_false_magma C90_false_magma_use C90_false_magma_leak
Proved for all programs without a queue of MAGMA, and with it for programs that move no plan. False with MAGMA on a GPU: moving any plan destroys its queue twice, lets a destroyed queue be used, and assignment leaks a queue.

C91 partial
C91_same_program C91_data_independent C91_bound_partial C91_nlogn_partial C91_exact_pow4 C91_exact_prime C91_false_rader C91_false_nlogn
Proved for the lengths that do not reach Rader's algorithm, with constants in terms of the prime factors. False in general: for primes above 100000 the convolution of Rader's algorithm is a double loop that evaluates a sine and a cosine in each step.

C92 partial
C92_shared_partial C92_one_at_a_time C92_false_first_call C92_false_work_memory
Proved for powers of two and three and primes up to 100000 after the first call, and for all lengths if one thread calls at a time. False otherwise: the first calls race for the plan, later calls share the work memory of the call graph.

C93 proved
C93_entries C93_layout C93_linear C93_turned C93_alternating C93_sine_cosine C93_sine_cosine_back C93_separable
For the stock backend, MKL, cuFFT and rocFFT in real arithmetic, under the guards of C45 and C70; FFTW's family is C64.

C94 partial
C94_counts C94_product C94_split C94_plan_partial C94_dash C94_printed C94_false_slabs C94_false_dash C94_false_dash_moved
Proved for all plans with pencils, and for plans with slabs when every direction has at least as many indexes as there are ranks. False for slabs in shorter worlds. The dash is printed wherever the bounds stay the same, but also at transpositions and at moves between ranks.

C95 proved
C95_complex C95_convolution C95_r2c C95_benchmark C95_false_benchmark
Standard model of rounding and lengths as in C77. The guards are those of C77 and C82; real data with fft3d_r2c is out of place.

C96 proved
C96_r2c C96_library_r2c C96_real C96_library_real C96_weights_needed C96_library_weights_needed
Exact numbers, under the hypotheses of C40, C53 and C62 (batches above 1 of an fft3d_r2c need the reshape behind the first executor, C43).

C97 proved
C97_inner C97_unitary C97_half
Exact numbers, for the calls covered by C87 (hypotheses of C40, C53 and C62). C97_half is about the real part: nothing is claimed for the imaginary part of the weighted sum (by hand, not in Lean: length 3, data 1,0,0 and 0,1,0, where it is not zero).
