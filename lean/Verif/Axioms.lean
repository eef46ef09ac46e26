import Verif.Props.Accuracy
import Verif.Props.Async
import Verif.Props.Bits
import Verif.Props.CApi
import Verif.Props.Calls
import Verif.Props.Convolution
import Verif.Props.Cost
import Verif.Props.Device
import Verif.Props.DeviceVector
import Verif.Props.Exec
import Verif.Props.FloatCalls
import Verif.Props.FloatConv
import Verif.Props.FloatTrig
import Verif.Props.Fortran
import Verif.Props.Geometry
import Verif.Props.Gpu
import Verif.Props.Grids
import Verif.Props.Inner
import Verif.Props.Laws
import Verif.Props.Library
import Verif.Props.Mpi
import Verif.Props.OwnSpeed
import Verif.Props.Pack
import Verif.Props.Plan
import Verif.Props.PlanInt
import Verif.Props.PlanVars
import Verif.Props.Python
import Verif.Props.R2R
import Verif.Props.RealEnergy
import Verif.Props.Reshape
import Verif.Props.ReshapeInt
import Verif.Props.Simd
import Verif.Props.Speed
import Verif.Props.Stock
import Verif.Props.Tags
import Verif.Props.Tails
import Verif.Props.Threads
import Verif.Props.Trace
import Verif.Props.Transform
import Verif.Props.TransformInt
import Verif.Props.TrigLaws
import Verif.Props.Vector
import Verif.Props.Vendor
import Verif.Props.Volume
import Verif.Props.Wave

/-! Axioms of every property theorem (generated by tools/manifest.py). -/

#print axioms Verif.C01_collide_exact
#print axioms Verif.C02_count_is_cardinality
#print axioms Verif.C03_accepted_iff_tiled
#print axioms Verif.C03_empty_box_bounds_matter
#print axioms Verif.C04_find_world_tightest
#print axioms Verif.C04_find_world_total
#print axioms Verif.C05_split_world_tiles
#print axioms Verif.C05_split_world_subranks
#print axioms Verif.C06_split_world_balanced
#print axioms Verif.C07_make_procgrid_optimal
#print axioms Verif.C07_make_procgrid_zero
#print axioms Verif.C08_make_procgrid2d
#print axioms Verif.C08_grid_layout
#print axioms Verif.C09_false
#print axioms Verif.C09_min_surface_partial
#print axioms Verif.C09_all_or_one
#print axioms Verif.C10_overlap_permutation
#print axioms Verif.C10_overlap_succeeds_partial
#print axioms Verif.C10_false
#print axioms Verif.C11_make_pencils
#print axioms Verif.C11_make_pencils_returns
#print axioms Verif.C12_make_slabs
#print axioms Verif.C12_make_slabs_returns
#print axioms Verif.C13_directions
#print axioms Verif.C14_stages_tile
#print axioms Verif.C14_planner_defined
#print axioms Verif.checked_geometry
#print axioms Verif.C15_transforms_local
#print axioms Verif.C16_chain
#print axioms Verif.C17_reorder_contiguous
#print axioms Verif.C17_unguarded_false
#print axioms Verif.C18_same_order
#print axioms Verif.C18_unguarded_false
#print axioms Verif.C19_subranks
#print axioms Verif.C20_pack_unpack
#print axioms Verif.C20_small_source_ub
#print axioms Verif.C21_unpack_transpose
#print axioms Verif.C21_pack_unpack_transpose
#print axioms Verif.C22_alltoallv
#print axioms Verif.C22_pointtopoint
#print axioms Verif.C22_alltoall
#print axioms Verif.C23_groups_alltoallv
#print axioms Verif.C23_groups_alltoall
#print axioms Verif.C24_alltoallv
#print axioms Verif.C24_in_place
#print axioms Verif.C25_alltoall
#print axioms Verif.C24_in_place
#print axioms Verif.C26_pointtopoint
#print axioms Verif.C24_in_place
#print axioms Verif.C27_algorithm_independent
#print axioms Verif.C28_round_trip
#print axioms Verif.C29_nothing_needed
#print axioms Verif.C29_transpose
#print axioms Verif.C30_in_bounds
#print axioms Verif.C30_exact_sizes
#print axioms Verif.C34_stock_fft_is_dft
#print axioms Verif.C34_small_lengths
#print axioms Verif.C34_strided
#print axioms Verif.C34_false
#print axioms Verif.C35_factor_partial
#print axioms Verif.C35_fails_iff
#print axioms Verif.C35_false
#print axioms Verif.C36_call_graph_fits
#print axioms Verif.C36_traversal
#print axioms Verif.C37_primitive_root
#print axioms Verif.C37_mod_pow
#print axioms Verif.C37_inverse
#print axioms Verif.C51_workspaces
#print axioms Verif.C31_each_entry_once
#print axioms Verif.C31_lines
#print axioms Verif.C31_stock
#print axioms Verif.C31_from_real
#print axioms Verif.C31_to_real
#print axioms Verif.C32_r2c
#print axioms Verif.C32_c2r
#print axioms Verif.C32_stock_r2c
#print axioms Verif.C32_stock_c2r
#print axioms Verif.C33_fftw_2d_partial
#print axioms Verif.C33_fftw_3d_partial
#print axioms Verif.C33_false_2d
#print axioms Verif.C33_false_3d
#print axioms Verif.C33_out_of_bounds
#print axioms Verif.C39_line
#print axioms Verif.C39_round_trip
#print axioms Verif.C38_complex
#print axioms Verif.C38_r2c
#print axioms Verif.C38_real
#print axioms Verif.C40_complex
#print axioms Verif.C40_real
#print axioms Verif.C40_fftw_false
#print axioms Verif.C41_C43_complex
#print axioms Verif.C41_C43_r2c_forward
#print axioms Verif.C41_C43_r2c_backward
#print axioms Verif.C41_C43_trig
#print axioms Verif.C42_execution_partial
#print axioms Verif.C42_runs_iff
#print axioms Verif.C42_consistent
#print axioms Verif.C42_false_empty
#print axioms Verif.C42_false_c2r
#print axioms Verif.C42_false_merged
#print axioms Verif.C41_C43_complex
#print axioms Verif.C41_C43_r2c_backward
#print axioms Verif.C41_C43_trig
#print axioms Verif.C43_r2c_forward_partial
#print axioms Verif.C43_r2c_false
#print axioms Verif.C43_r2c_wrong
#print axioms Verif.C44_complex
#print axioms Verif.C44_r2c
#print axioms Verif.C44_c2r
#print axioms Verif.C44_regions
#print axioms Verif.C40_complex
#print axioms Verif.C52_real
#print axioms Verif.C53_forward
#print axioms Verif.C53_backward
#print axioms Verif.C54_object
#print axioms Verif.C54_object_r2c
#print axioms Verif.C54_constructor
#print axioms Verif.C54_constructor_r2c
#print axioms Verif.C45_cos_lines
#print axioms Verif.C45_workspace
#print axioms Verif.C45_calls
#print axioms Verif.C46_sin_lines
#print axioms Verif.C45_workspace
#print axioms Verif.C45_calls
#print axioms Verif.C47_cos1_lines
#print axioms Verif.C45_workspace
#print axioms Verif.C45_calls
#print axioms Verif.C48_cos1_single_false
#print axioms Verif.C48_roundtrip
#print axioms Verif.C48_object
#print axioms Verif.C48_constructor
#print axioms Verif.C48_cos1_single_false
#print axioms Verif.C49_invalid_backend
#print axioms Verif.C49_created_partial
#print axioms Verif.C49_created_r2c_partial
#print axioms Verif.C49_honours_iff
#print axioms Verif.C49_honours_iff_r2c
#print axioms Verif.C49_default_options
#print axioms Verif.C49_default_gpu
#print axioms Verif.C49_escape_false
#print axioms Verif.C49_dangling_false
#print axioms Verif.C49_two_false
#print axioms Verif.C49_invalid_boxes_false
#print axioms Verif.C49_direction_false
#print axioms Verif.C50_ignored
#print axioms Verif.C50_subcomm_partial
#print axioms Verif.C50_false
#print axioms Verif.C55_boxes
#print axioms Verif.C55_complex
#print axioms Verif.C55_real_forward
#print axioms Verif.C55_real_backward
#print axioms Verif.C55_r2c
#print axioms Verif.C55_kind_false
#print axioms Verif.C49_created_partial
#print axioms Verif.C56_pack
#print axioms Verif.C56_unpack
#print axioms Verif.C56_unpack_transpose
#print axioms Verif.C56_overflow
#print axioms Verif.C56_false
#print axioms Verif.C56_one_pack
#print axioms Verif.C56_one_unpack
#print axioms Verif.C57_convert
#print axioms Verif.C57_convert_overflow
#print axioms Verif.C57_convert_lost
#print axioms Verif.C57_one_convert
#print axioms Verif.C57_scale
#print axioms Verif.C57_scale_complex
#print axioms Verif.C57_false
#print axioms Verif.C57_one_scale
#print axioms Verif.C57_magma
#print axioms Verif.C57_magma_false
#print axioms Verif.C58_trig
#print axioms Verif.C58_trig_one
#print axioms Verif.C59_one
#print axioms Verif.C59_two_as_fftw
#print axioms Verif.C59_three_as_fftw
#print axioms Verif.C59_two_partial
#print axioms Verif.C59_three_partial
#print axioms Verif.C59_false_2d
#print axioms Verif.C59_false_3d
#print axioms Verif.C60_mkl_forward
#print axioms Verif.C60_mkl_backward
#print axioms Verif.C60_cufft_forward
#print axioms Verif.C60_cufft_backward
#print axioms Verif.C60_rocfft_forward
#print axioms Verif.C60_rocfft_backward
#print axioms Verif.C61_forward_partial
#print axioms Verif.C61_backward_partial
#print axioms Verif.C61_forward_false
#print axioms Verif.C61_backward_false
#print axioms Verif.C62_complex
#print axioms Verif.C62_real
#print axioms Verif.C62_backward_real
#print axioms Verif.C62_round_trip
#print axioms Verif.C62_r2c_forward
#print axioms Verif.C62_r2c_backward
#print axioms Verif.C59_one
#print axioms Verif.C59_two_as_fftw
#print axioms Verif.C59_three_as_fftw
#print axioms Verif.C63_complex
#print axioms Verif.C63_real
#print axioms Verif.C63_backward_real
#print axioms Verif.C64_calls
#print axioms Verif.C64_round_trip
#print axioms Verif.C64_constructor
#print axioms Verif.C65_agree_partial
#print axioms Verif.C65_ratio
#print axioms Verif.C65_false
#print axioms Verif.C66_arithmetic
#print axioms Verif.C66_quotient
#print axioms Verif.C66_modulus
#print axioms Verif.C66_load
#print axioms Verif.C66_copy_pad
#print axioms Verif.C66_copy_pad_real
#print axioms Verif.C66_copy_pad_throws
#print axioms Verif.C67_c2c_lines
#print axioms Verif.C67_r2c_lines
#print axioms Verif.C67_c2r_lines
#print axioms Verif.C67_c2c_dft
#print axioms Verif.C67_c2c
#print axioms Verif.C67_r2c
#print axioms Verif.C67_c2r
#print axioms Verif.C68_throws
#print axioms Verif.C68_never_throws
#print axioms Verif.C68_forward
#print axioms Verif.C68_forward_real
#print axioms Verif.C68_backward
#print axioms Verif.C68_backward_real_partial
#print axioms Verif.C68_r2c_forward
#print axioms Verif.C68_r2c_backward_partial
#print axioms Verif.C68_trig
#print axioms Verif.C68_false
#print axioms Verif.C69_types
#print axioms Verif.C69_extended
#print axioms Verif.C69_options
#print axioms Verif.C69_scale
#print axioms Verif.C69_objects
#print axioms Verif.C69_names_false
#print axioms Verif.C69_names_partial
#print axioms Verif.C70_calls
#print axioms Verif.C70_round_trip
#print axioms Verif.C70_agree
#print axioms Verif.C70_mkl_calls
#print axioms Verif.C70_mkl_round_trip
#print axioms Verif.C70_mkl_agree
#print axioms Verif.C71_partial
#print axioms Verif.AllToAll.jobM_bound
#print axioms Verif.C71_false_alltoall
#print axioms Verif.C71_false_workspace
#print axioms Verif.C71_false_transpose
#print axioms Verif.C71_false_longLong
#print axioms Verif.C72_device_reshape
#print axioms Verif.C72_deterministic
#print axioms Verif.C72_in_bounds
#print axioms Verif.C72_false_without_wait
#print axioms Verif.C73_no_deadlock
#print axioms Verif.C73_messages_match
#print axioms Verif.C73_allowed
#print axioms Verif.C73_communicators
#print axioms Verif.C73_false_open_messages
#print axioms Verif.C74_own_speed
#print axioms Verif.C74_program
#print axioms Verif.C74_completes
#print axioms Verif.C74_transforms
#print axioms Verif.C74_round_trip
#print axioms Verif.C75_values
#print axioms Verif.C75_no_leak
#print axioms Verif.C75_exception
#print axioms Verif.C75_false_queues
#print axioms Verif.C75_false_memory
#print axioms Verif.C76_error_bound
#print axioms Verif.C76_linear
#print axioms Verif.C76_error_prime
#print axioms Verif.C76_any_memory
#print axioms Verif.C76_growth
#print axioms Verif.C77_complex
#print axioms Verif.C77_real
#print axioms Verif.C77_backward_real
#print axioms Verif.C77_r2c
#print axioms Verif.C77_r2c_backward
#print axioms Verif.C77_round_trip
#print axioms Verif.C77_round_trip_r2c
#print axioms Verif.C78_bits
#print axioms Verif.C78_options
#print axioms Verif.C78_options_r2c
#print axioms Verif.C78_float
#print axioms Verif.C78_float_r2c
#print axioms Verif.C78_false_pencils
#print axioms Verif.C78_false_ranks
#print axioms Verif.C79_object
#print axioms Verif.C79_object_r2c
#print axioms Verif.C79_complex
#print axioms Verif.C79_forward_r2c
#print axioms Verif.C79_backward_r2c
#print axioms Verif.C79_false_batch
#print axioms Verif.C79_false_large_box
#print axioms Verif.C80_created
#print axioms Verif.C80_created_r2c
#print axioms Verif.C80_arguments
#print axioms Verif.C80_direction
#print axioms Verif.C80_forward_checks
#print axioms Verif.C80_backward_checks_partial
#print axioms Verif.C80_types
#print axioms Verif.C80_all_ranks
#print axioms Verif.C80_complex_partial
#print axioms Verif.C80_real_forward
#print axioms Verif.C80_real_backward_partial
#print axioms Verif.C80_forward_r2c
#print axioms Verif.C80_split_world
#print axioms Verif.C80_false_failure
#print axioms Verif.C80_false_backward
#print axioms Verif.C80_false_backward_r2c
#print axioms Verif.C80_false_kind
#print axioms Verif.C80_false_memory
#print axioms Verif.C80_false_workspace
#print axioms Verif.C80_false_strided
#print axioms Verif.C80_false_split_world
#print axioms Verif.C80_false_split_grid
#print axioms Verif.C81_plan
#print axioms Verif.C81_asserts
#print axioms Verif.C81_split
#print axioms Verif.C81_surface
#print axioms Verif.C81_false_ranks
#print axioms Verif.C81_false_world
#print axioms Verif.C81_false_surface
#print axioms Verif.C82_complex
#print axioms Verif.C82_r2c
#print axioms Verif.C82_library
#print axioms Verif.C82_library_r2c
#print axioms Verif.C82_energy
#print axioms Verif.C82_library_energy
#print axioms Verif.C82_benchmark
#print axioms Verif.C82_library_benchmark
#print axioms Verif.C82_false_benchmark
#print axioms Verif.C83_runs
#print axioms Verif.C83_lifetimes
#print axioms Verif.C83_no_leak
#print axioms Verif.C83_ranks
#print axioms Verif.C83_objects
#print axioms Verif.C83_error_code
#print axioms Verif.C83_boxes
#print axioms Verif.C83_options
#print axioms Verif.C83_constructor
#print axioms Verif.C83_complex
#print axioms Verif.C83_real
#print axioms Verif.C83_r2c
#print axioms Verif.C83_false_copy
#print axioms Verif.C83_false_null
#print axioms Verif.C83_false_leak
#print axioms Verif.C84_complex
#print axioms Verif.C84_real
#print axioms Verif.C84_backward_real
#print axioms Verif.C84_r2c_forward
#print axioms Verif.C84_r2c_backward
#print axioms Verif.C84_trig
#print axioms Verif.C84_library
#print axioms Verif.C84_waves
#print axioms Verif.C85_boxes
#print axioms Verif.C85_complex_partial
#print axioms Verif.C85_trig_partial
#print axioms Verif.C85_r2c_partial
#print axioms Verif.C85_program_partial
#print axioms Verif.C85_detects
#print axioms Verif.C85_detects_r2c
#print axioms Verif.C85_false_warmup
#print axioms Verif.C85_false_batch
#print axioms Verif.C85_false_grid
#print axioms Verif.C85_false_default
#print axioms Verif.C86_calls
#print axioms Verif.C86_round_trip
#print axioms Verif.C87_entries
#print axioms Verif.C87_layout
#print axioms Verif.C87_linear
#print axioms Verif.C87_shift
#print axioms Verif.C87_conjugate
#print axioms Verif.C87_real
#print axioms Verif.C87_reverse
#print axioms Verif.C87_separable
#print axioms Verif.C87_impulse
#print axioms Verif.C87_back_entries
#print axioms Verif.C87_back_layout
#print axioms Verif.C87_back_linear
#print axioms Verif.C87_back_parts
#print axioms Verif.C87_back_half
#print axioms Verif.C88_file
#print axioms Verif.C88_records
#print axioms Verif.C88_times
#print axioms Verif.C88_complete
#print axioms Verif.C88_call
#print axioms Verif.C88_reshapes
#print axioms Verif.C88_program
#print axioms Verif.C88_messages_partial
#print axioms Verif.C88_false_name
#print axioms Verif.C88_false_no_init
#print axioms Verif.C88_false_reshape_copy
#print axioms Verif.C88_false_x3
#print axioms Verif.C88_false_staged
#print axioms Verif.C88_false_unpacking
#print axioms Verif.C89_volume
#print axioms Verif.C89_alltoall
#print axioms Verif.C89_silent
#print axioms Verif.C89_messages
#print axioms Verif.C89_blocks
#print axioms Verif.C89_false_alltoall
#print axioms Verif.C90_defined
#print axioms Verif.C90_used_right_partial
#print axioms Verif.C90_given_back_partial
#print axioms Verif.C90_value_partial
#print axioms Verif.C90_no_deadlock_partial
#print axioms Verif.C90_false_magma
#print axioms Verif.C90_false_magma_use
#print axioms Verif.C90_false_magma_leak
#print axioms Verif.C91_same_program
#print axioms Verif.C91_data_independent
#print axioms Verif.C91_bound_partial
#print axioms Verif.C91_nlogn_partial
#print axioms Verif.C91_exact_pow4
#print axioms Verif.C91_exact_prime
#print axioms Verif.C91_false_rader
#print axioms Verif.C91_false_nlogn
#print axioms Verif.C92_shared_partial
#print axioms Verif.C92_one_at_a_time
#print axioms Verif.C92_false_first_call
#print axioms Verif.C92_false_work_memory
#print axioms Verif.C93_entries
#print axioms Verif.C93_layout
#print axioms Verif.C93_linear
#print axioms Verif.C93_turned
#print axioms Verif.C93_alternating
#print axioms Verif.C93_sine_cosine
#print axioms Verif.C93_sine_cosine_back
#print axioms Verif.C93_separable
#print axioms Verif.C94_counts
#print axioms Verif.C94_product
#print axioms Verif.C94_split
#print axioms Verif.C94_plan_partial
#print axioms Verif.C94_dash
#print axioms Verif.C94_printed
#print axioms Verif.C94_false_slabs
#print axioms Verif.C94_false_dash
#print axioms Verif.C94_false_dash_moved
#print axioms Verif.C95_complex
#print axioms Verif.C95_convolution
#print axioms Verif.C95_r2c
#print axioms Verif.C95_benchmark
#print axioms Verif.C95_false_benchmark
#print axioms Verif.C96_r2c
#print axioms Verif.C96_library_r2c
#print axioms Verif.C96_real
#print axioms Verif.C96_library_real
#print axioms Verif.C96_weights_needed
#print axioms Verif.C96_library_weights_needed
#print axioms Verif.C97_inner
#print axioms Verif.C97_unitary
#print axioms Verif.C97_half
