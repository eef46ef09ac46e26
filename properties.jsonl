{"id": "C01", "title": "Box intersection is exact", "statement": "For any two boxes, the box returned by collide() contains an index triple exactly when both boxes contain it; when either operand is empty the result is empty; for non-empty operands the result keeps the storage order of the left operand.", "quantifier": "all pairs of boxes with arbitrary (also negative, also empty) bounds, all index triples", "why_tests_cant": "infinitely many relative positions of two boxes (disjoint, touching, nested, empty operands) in three dimensions", "anchors": ["include/heffte_geometry.h:box3d::collide", "include/heffte_geometry.h:box3d::empty"]}
{"id": "C02", "title": "count() is the number of index triples", "statement": "count() equals the number of index triples inside the box and empty() is true exactly when there is none, including boxes with high < low - 1.", "quantifier": "all boxes with arbitrary bounds", "why_tests_cant": "unbounded domain; tests only sample positive sizes", "anchors": ["include/heffte_geometry.h:box3d::count", "include/heffte_geometry.h:box3d::empty"]}
{"id": "C03", "title": "Accepted geometries tile the world", "statement": "When the constructor-time sanity checks accept a list of boxes (no exception), the enclosing world (find_world, bounds of empty boxes included) starts at (0,0,0) and every index triple of the world belongs to exactly one box; conversely every list of boxes that tiles its zero-based enclosing world exactly once is accepted; otherwise std::invalid_argument is raised.", "quantifier": "all non-empty lists of boxes (any number of ranks, empty boxes allowed) and all index triples", "why_tests_cant": "the check is a counting argument (volume plus pairwise intersections); correctness for every number of ranks is a theorem, not a finite set of cases", "anchors": ["include/heffte_geometry.h:world_complete", "include/heffte_geometry.h:find_world", "src/heffte_plan_logic.cpp:plan_operations"]}
{"id": "C04", "title": "find_world is the tightest enclosing box", "statement": "find_world returns a box whose bounds enclose the bounds of every listed box and which is contained in any other box with that property.", "quantifier": "all non-empty lists of boxes", "why_tests_cant": "unbounded list lengths and bounds", "anchors": ["include/heffte_geometry.h:find_world"]}
{"id": "C05", "title": "split_world tiles the world for every process grid", "statement": "split_world returns one box per grid cell, all in the storage order of the world, and every index of the world is in exactly one of them, for any lower bound of the world and any positive grid, also when there are more grid cells than indexes; with a subset of ranks the other ranks get empty boxes and the tiling still holds.", "quantifier": "all worlds, all positive process grids, all numbers of sub-ranks", "why_tests_cant": "integer division with remainders over arbitrary sizes and grids", "anchors": ["include/heffte_geometry.h:split_world", "include/heffte_geometry.h:rank_remap"]}
{"id": "C06", "title": "split_world is balanced", "statement": "In each direction the sizes of any two boxes returned by split_world differ by at most one, and no box is empty when the grid is not larger than the world in any direction.", "quantifier": "all worlds with non-negative sizes and all positive grids", "why_tests_cant": "all remainders of all divisions", "anchors": ["include/heffte_geometry.h:split_world"]}
{"id": "C07", "title": "make_procgrid is an optimal factorization", "statement": "make_procgrid(n) returns two positive factors whose product is exactly n and no other factorization of n has a smaller area.", "quantifier": "all n >= 1", "why_tests_cant": "number of ranks is unbounded", "anchors": ["include/heffte_geometry.h:make_procgrid", "include/heffte_geometry.h:get_factors", "include/heffte_geometry.h:get_area"]}
{"id": "C08", "title": "make_procgrid2d honours its documented constraints", "statement": "When make_procgrid2d returns, the grid is 1 in the requested direction, its product equals the product of the candidate grid and it does not exceed the world in any direction; it returns the candidate whenever the candidate fits; it throws exactly when no factorization fits.", "quantifier": "all worlds, directions and positive candidate grids", "why_tests_cant": "existence of a factorization is a number theoretic condition over all rank counts", "anchors": ["include/heffte_geometry.h:make_procgrid2d"]}
{"id": "C09", "title": "proc_setup_min_surface uses all the ranks", "statement": "The grid returned by proc_setup_min_surface multiplies to the number of ranks, fits into the world, and minimises the documented surface among all grids that do, whenever at least one such grid exists.", "quantifier": "all worlds with positive sizes and all rank counts", "why_tests_cant": "the search loop skips some divisors; only exotic size/rank combinations reveal it", "anchors": ["include/heffte_geometry.h:proc_setup_min_surface"]}
{"id": "C10", "title": "Overlap maximisation never loses a box", "statement": "Rearranging boxes to maximise the overlap with the previous distribution returns a permutation of the given boxes, all with the requested order (ranks outside the sub-communicator keep their empty box).", "quantifier": "all lists of boxes of equal length, all orders, all remaps", "why_tests_cant": "the greedy selection narrows 64-bit counts to int, which only misbehaves for overlaps of 2^31 indexes or more", "anchors": ["include/heffte_geometry.h:maximize_overlap"]}
{"id": "C11", "title": "make_pencils gives pencils", "statement": "When it returns, make_pencils gives every rank one box, all boxes have the requested order, the boxes tile the world and every non-empty box spans the whole world in the requested dimension.", "quantifier": "all worlds, all tilings of it given as source, all rank counts, dimensions, orders and sub-rank maps", "why_tests_cant": "combination of factorization, splitting and greedy matching over any number of ranks", "anchors": ["include/heffte_geometry.h:make_pencils"]}
{"id": "C12", "title": "make_slabs gives slabs", "statement": "make_slabs gives every rank one box in the requested order, the boxes tile the world and every non-empty box spans the world in both requested dimensions.", "quantifier": "all worlds, sources, rank counts, pairs of distinct dimensions, orders, sub-rank maps", "why_tests_cant": "as for pencils", "anchors": ["include/heffte_geometry.h:make_slabs"]}
{"id": "C13", "title": "The FFT directions are always a permutation", "statement": "Whatever boxes and options are given, the plan performs exactly one batch of one-dimensional transforms in each of the three directions, and for r2c plans the shrunk direction comes first.", "quantifier": "all box lists, r2c directions, pencil/slab and reorder options, sub-ranks", "why_tests_cant": "the planner is a large decision tree with sentinels and overwrites; tests cover a few geometries", "anchors": ["src/heffte_plan_logic.cpp:plan_operations", "src/heffte_plan_logic.cpp:plan_pencil_reshapes", "src/heffte_plan_logic.cpp:plan_slab_reshapes"]}
{"id": "C14", "title": "Every stage of the plan is a tiling", "statement": "In every plan that is returned each of the intermediate distributions has exactly one box per rank and tiles the real-space world (before the first transform of an r2c plan) or the complex-space world (after it).", "quantifier": "all valid geometries, any number of ranks, all options", "why_tests_cant": "any number of ranks and sizes; an index owned twice or by nobody silently corrupts the spectrum", "anchors": ["src/heffte_plan_logic.cpp:plan_operations", "include/heffte_geometry.h:make_pencils", "include/heffte_geometry.h:make_slabs", "include/heffte_geometry.h:split_world"]}
{"id": "C15", "title": "One-dimensional transforms are rank local", "statement": "At the moment of the i-th batch of transforms every non-empty local box spans the complete world in the i-th transform direction.", "quantifier": "all valid geometries and options", "why_tests_cant": "decision tree over unbounded geometries", "anchors": ["src/heffte_plan_logic.cpp:plan_operations", "include/heffte_geometry.h:is_pencils", "include/heffte_geometry.h:is_slab"]}
{"id": "C16", "title": "The chain of reshapes is connected", "statement": "The first reshape starts from the user input boxes, the last one ends in the user output boxes (bounds and order), and every reshape starts from exactly the distribution left by the previous transform.", "quantifier": "all geometries and options", "why_tests_cant": "follows for all inputs only from the structure of the planner", "anchors": ["src/heffte_plan_logic.cpp:plan_operations"]}
{"id": "C17", "title": "use_reorder makes transforms contiguous", "statement": "With use_reorder every local box that is transformed in direction d is stored with d as the fastest dimension.", "quantifier": "all valid geometries and options; for r2c under the condition that rank 0 holds an index and no box has 2^31 or more indexes (without it the claim is false)", "why_tests_cant": "planner decisions based on rank 0 only; tests never give rank 0 an empty box with r2c", "anchors": ["src/heffte_plan_logic.cpp:next_pencils_shape", "src/heffte_plan_logic.cpp:reorder_slabs", "src/heffte_plan_logic.cpp:new_order"]}
{"id": "C18", "title": "All ranks of one stage agree on the storage order", "statement": "In every distribution of a plan all ranks that hold an index use the same storage order as rank 0 (the reshape factory looks only at rank 0 to decide how to unpack); for c2c the ranks without an index do too.", "quantifier": "all valid geometries and options; for r2c under the condition that rank 0 holds an index and no box has 2^31 or more indexes (without it the claim is false)", "why_tests_cant": "requires an empty box on rank 0, which is documented as allowed for sub-ranks but not combined with r2c in tests", "anchors": ["src/heffte_plan_logic.cpp:apply_r2c", "include/heffte_geometry.h:box3d::r2c", "include/heffte_reshape3d.h:make_reshape3d"]}
{"id": "C19", "title": "Sub-ranks confine the intermediate work", "statement": "With use_num_subranks(k), every intermediate distribution created by the planner (not taken from the user boxes) leaves ranks k and above empty.", "quantifier": "all k less than the number of ranks, all geometries", "why_tests_cant": "all combinations of k and rank counts", "anchors": ["include/heffte_geometry.h:rank_remap::set_subranks", "include/heffte_geometry.h:split_world", "include/heffte_geometry.h:maximize_overlap"]}
{"id": "C20", "title": "Pack followed by unpack restores the sub-box", "statement": "Packing any sub-box of a local array and unpacking the message into a sub-box of the same shape of another array transfers exactly the values of the sub-box in order, touches nothing else, and never reads or writes outside of the arrays.", "quantifier": "all boxes, sub-boxes, orders, element types, array contents", "why_tests_cant": "strided index arithmetic over all sizes and orders", "anchors": ["include/heffte_pack3d.h:direct_packer::pack", "include/heffte_pack3d.h:direct_packer::unpack"]}
{"id": "C21", "title": "Transposed unpack is right for all six relative orders", "statement": "Unpacking a message packed in one storage order into an array with any other storage order puts each global index at its place, for every cache block size, without touching other entries and without going out of bounds.", "quantifier": "all pairs of storage orders, sizes, block sizes", "why_tests_cant": "six hand written loop nests with blocking; mistakes are visible only for particular size combinations", "anchors": ["include/heffte_pack3d.h:transpose_packer::unpack", "src/heffte_reshape3d.cpp:compute_overlap_map_transpose_pack"]}
{"id": "C22", "title": "Counts sent and received match pairwise", "statement": "For every pair of ranks the number of entries the first sends to the second equals the number the second expects from the first, and is the number of indexes in the intersection of the boxes.", "quantifier": "all box lists, all pairs of ranks", "why_tests_cant": "a mismatch is an MPI truncation error that needs a specific geometry", "anchors": ["src/heffte_reshape3d.cpp:compute_overlap_map_direct_pack", "src/heffte_reshape3d.cpp:compute_overlap_map_transpose_pack", "include/heffte_reshape3d.h:reshape3d_alltoallv::iotripple"]}
{"id": "C23", "title": "Communication groups are consistent", "statement": "The group of ranks computed for a collective exchange is the same list on all its members, contains everybody any member exchanges data with, and groups of two ranks are identical or disjoint.", "quantifier": "all box lists, all ranks", "why_tests_cant": "graph closure computed independently by every rank; a disagreement deadlocks MPI_Comm_create or MPI_Alltoallv", "anchors": ["src/heffte_reshape3d.cpp:a2a_group"]}
{"id": "C24", "title": "alltoallv reshape moves every index to its new owner", "statement": "After a reshape with the alltoallv algorithm each rank holds, at the position given by its new box and order, the value that the previous owner of the index had; for any batch size, also in place.", "quantifier": "all pairs of tilings of one world, any number of ranks, orders, batch sizes and data", "why_tests_cant": "all sizes and ranks", "anchors": ["src/heffte_reshape3d.cpp:reshape3d_alltoallv::apply_base", "src/heffte_reshape3d.cpp:make_reshape3d_alltoallv"]}
{"id": "C25", "title": "alltoall (padded) reshape moves every index to its new owner", "statement": "Same as for alltoallv but with padded MPI_Alltoall.", "quantifier": "all pairs of tilings, any number of ranks, orders, batch sizes and data", "why_tests_cant": "as above", "anchors": ["src/heffte_reshape3d.cpp:reshape3d_alltoall::apply_base", "src/heffte_reshape3d.cpp:make_reshape3d_alltoall", "src/heffte_reshape3d.cpp:get_max_size"]}
{"id": "C26", "title": "Point-to-point reshape is right for every arrival order", "statement": "Same as for alltoallv with the p2p and p2p_plined algorithms, for every order in which the messages complete.", "quantifier": "all pairs of tilings, any number of ranks, orders, batch sizes, data and all completion orders", "why_tests_cant": "MPI_Waitany completion order is non deterministic", "anchors": ["src/heffte_reshape3d.cpp:reshape3d_pointtopoint::apply_base", "src/heffte_reshape3d.cpp:make_reshape3d_pointtopoint"]}
{"id": "C27", "title": "The reshape algorithm does not influence the result", "statement": "All four reshape algorithms produce identical data on every rank.", "quantifier": "all geometries and data", "why_tests_cant": "as above", "anchors": ["include/heffte_reshape3d.h:make_reshape3d", "src/heffte_reshape3d.cpp"]}
{"id": "C28", "title": "Backward reshape undoes the forward reshape", "statement": "Reshaping from distribution A to B and then from B to A restores the data on every rank.", "quantifier": "all pairs of tilings, all data", "why_tests_cant": "as above", "anchors": ["include/heffte_reshape3d.h:make_reshape3d", "include/heffte_fft3d.h:setup"]}
{"id": "C29", "title": "Omitted reshapes are not needed", "statement": "When the library decides that no communication (or no operation) is needed between two distributions, the local data already is (or only has to be transposed) in the required layout.", "quantifier": "all pairs of distributions with uniform orders", "why_tests_cant": "as above", "anchors": ["include/heffte_reshape3d.h:make_reshape3d", "include/heffte_geometry.h:match", "include/heffte_reshape3d.h:reshape3d_transpose"]}
{"id": "C30", "title": "Reshape stays within its workspace", "statement": "A reshape with batch size b touches at most b*size_workspace() entries of the workspace, its send and receive parts are disjoint, and no read or write leaves the user arrays of b*size_input and b*size_output entries.", "quantifier": "all tilings, all algorithms, all batch sizes", "why_tests_cant": "memory safety for all sizes", "anchors": ["include/heffte_reshape3d.h:size_workspace", "src/heffte_reshape3d.cpp:apply_base"]}
{"id": "C31", "title": "Strides of the 1-D executors visit each line exactly once", "statement": "For every box, order and transform dimension, the (size, howmany, stride, dist, blocks, block_stride) numbers enumerate each element of the local array exactly once and each enumerated vector is one line of the box in the transform dimension, in index order.", "quantifier": "all non-empty boxes, orders and dimensions", "why_tests_cant": "arithmetic over all sizes", "anchors": ["include/heffte_geometry.h:fft1d_get_howmany", "include/heffte_geometry.h:fft1d_get_stride", "include/heffte_backend_stock.h:stock_fft_executor", "include/heffte_backend_fftw.h:fftw_executor"]}
{"id": "C32", "title": "Real-to-complex executor strides", "statement": "The r2c executor reads each line of the real box exactly once and writes the shrunk lines at the layout of the box returned by box.r2c(dimension) without gaps or overlaps.", "quantifier": "all non-empty boxes, orders and dimensions", "why_tests_cant": "odd/even sizes and all layouts", "anchors": ["include/heffte_backend_stock.h:stock_fft_executor_r2c", "include/heffte_backend_fftw.h:fftw_executor_r2c", "include/heffte_geometry.h:box3d::r2c"]}
{"id": "C33", "title": "2-D and 3-D FFTW executors address the right data", "statement": "The multi-dimensional FFTW executors perform the transform over exactly the requested directions of the local box, for every storage order.", "quantifier": "all non-empty boxes, storage orders and direction pairs", "why_tests_cant": "tests use cubes or the default order, where the mistake is invisible", "anchors": ["include/heffte_backend_fftw.h:fftw_executor", "include/heffte_backend_fftw.h:plan_fftw", "include/heffte_fft3d.h:setup"]}
{"id": "C34", "title": "The stock FFT is the discrete Fourier transform", "statement": "For every length, stride and direction the stock backend computes (in exact arithmetic) the discrete Fourier transform of the input vector.", "quantifier": "all lengths N >= 1 for which the factorization succeeds, all inputs", "why_tests_cant": "recursion over all factorizations of all lengths", "anchors": ["include/stock_fft/heffte_stock_algos.h:pow2_FFT", "include/stock_fft/heffte_stock_algos.h:pow3_FFT", "include/stock_fft/heffte_stock_algos.h:pow4_FFT", "include/stock_fft/heffte_stock_algos.h:composite_FFT", "include/stock_fft/heffte_stock_algos.h:DFT", "include/stock_fft/heffte_stock_algos.h:rader_FFT", "include/stock_fft/heffte_stock_tree.h:init_fft_tree"]}
{"id": "C35", "title": "Factor search finds a factor of every composite length", "statement": "factor(N) returns a proper divisor of N whenever N is composite and N itself when N is prime.", "quantifier": "all N >= 2", "why_tests_cant": "fails only for squares of primes above 1213, i.e. lengths above 1.4 million", "anchors": ["include/stock_fft/heffte_stock_tree.h:factor", "include/stock_fft/heffte_stock_tree.h:fptrFactorHelper"]}
{"id": "C36", "title": "The call graph of the stock FFT fits in its allocation", "statement": "The number of nodes written while building the call graph for length N equals the number of nodes allocated, and child links point inside of the allocation.", "quantifier": "all N >= 1", "why_tests_cant": "two separately written recursions must agree for every N", "anchors": ["include/stock_fft/heffte_stock_tree.h:getNumNodes", "include/stock_fft/heffte_stock_tree.h:init_fft_tree", "include/stock_fft/heffte_stock_tree.h:numNodesFactorHelper", "include/stock_fft/heffte_stock_tree.h:fptrFactorHelper"]}
{"id": "C37", "title": "Rader's primitive root search", "statement": "For every odd prime p the root found generates all non-zero residues modulo p, modPow computes modular powers, and the stored inverse is the inverse of the root.", "quantifier": "all odd primes", "why_tests_cant": "number theory over all primes", "anchors": ["include/stock_fft/heffte_stock_tree.h:primeRoot", "include/stock_fft/heffte_stock_tree.h:modPow", "include/stock_fft/heffte_stock_tree.h:findFactorRader"]}
{"id": "C38", "title": "Forward then backward restores the signal", "statement": "The backward transform of the forward transform is the signal multiplied by the number of indexes, and scale::full once or scale::symmetric twice makes it the identity, for calls on all ranks with complex data, real data and fft3d_r2c.", "quantifier": "all tilings, rank counts, orders, options, batch sizes and data (stock backend, exact arithmetic); boxes not empty on the side where data enters (as documented), lengths that the stock factorization handles", "why_tests_cant": "all sizes", "anchors": ["include/heffte_fft3d.h:forward", "include/heffte_fft3d.h:backward", "include/heffte_fft3d.h:get_scale_factor"]}
{"id": "C39", "title": "Real-to-complex keeps all the information", "statement": "For real data the half spectrum kept by r2c (sizes n/2+1) determines the data: c2r of the r2c result is the original times n, for even and odd n.", "quantifier": "all n >= 1, all real data", "why_tests_cant": "parity cases over all n", "anchors": ["include/heffte_backend_stock.h:stock_fft_executor_r2c", "include/heffte_fft3d_r2c.h:fft3d_r2c"]}
{"id": "C40", "title": "The distributed forward transform is the 3-D DFT", "statement": "If before the call the local arrays on all ranks hold a global array according to the input boxes, then after forward() they hold its three dimensional discrete Fourier transform according to the output boxes.", "quantifier": "all tilings, rank counts, orders, options, batch sizes, in place or not, and data (stock backend, exact arithmetic); boxes not empty on the side where data enters (as documented), lengths that the stock factorization handles", "why_tests_cant": "composition of planner, reshapes and local transforms over unbounded parameters", "anchors": ["include/heffte_fft3d.h:fft3d", "src/heffte_compute_transform.cpp:compute_transform", "src/heffte_plan_logic.cpp:plan_operations"]}
{"id": "C41", "title": "Results do not depend on plan options", "statement": "use_reorder, use_pencils, the reshape algorithm and the number of sub-ranks do not change the result.", "quantifier": "all option values, tilings, rank counts and data (stock backend, exact arithmetic); boxes not empty on the side where data enters (as documented), lengths that the stock factorization handles", "why_tests_cant": "combinatorial explosion of options and geometries", "anchors": ["include/heffte_fft3d.h:fft3d", "include/heffte_plan_logic.h:plan_options"]}
{"id": "C42", "title": "Execution order of the transform stages", "statement": "compute_transform applies the available reshapes and executors in plan order, each once, to the right buffer, and leaves the final data in the output array, for every pattern of omitted reshapes, in place or out of place.", "quantifier": "all patterns of null reshapes/executors, in-place and out-of-place", "why_tests_cant": "many combinations depend on geometry; some are never generated by the tests", "anchors": ["src/heffte_compute_transform.cpp:compute_transform"]}
{"id": "C43", "title": "Batched transforms equal repeated single transforms", "statement": "A call with batch size b gives the same result as b separate calls on consecutive chunks.", "quantifier": "all batch sizes and patterns of omitted reshapes", "why_tests_cant": "r2c without reshapes and batch > 1 is not tested", "anchors": ["src/heffte_compute_transform.cpp:compute_transform", "include/heffte_fft3d_r2c.h:forward"]}
{"id": "C44", "title": "Workspace regions do not overlap", "statement": "Within a workspace of size_workspace() entries (times the batch size) the communication, data and executor regions used simultaneously are disjoint and in bounds, for c2c, real-to-complex and complex-to-real calls.", "quantifier": "all sizes of boxes, reshapes and executor workspaces", "why_tests_cant": "buffer overlaps need particular size ratios between ranks", "anchors": ["src/heffte_compute_transform.cpp:compute_transform", "include/heffte_fft3d.h:setup", "include/heffte_fft3d_r2c.h:setup"]}
{"id": "C45", "title": "Cosine transform equals its definition", "statement": "The stock cosine transforms computed through the extended real FFT equal the DCT-II (forward) and twice the DCT-III (backward) as defined by FFTW, for every length.", "quantifier": "all n >= 1, all real data (exact arithmetic)", "why_tests_cant": "all lengths", "anchors": ["include/heffte_r2r_executor.h:cpu_cos_pre_pos_processor"]}
{"id": "C46", "title": "Sine transform equals its definition", "statement": "The stock sine transforms equal the DST-II (forward) and twice the DST-III (backward) as defined by FFTW.", "quantifier": "all n >= 1, all real data", "why_tests_cant": "all lengths", "anchors": ["include/heffte_r2r_executor.h:cpu_sin_pre_pos_processor"]}
{"id": "C47", "title": "Cosine-I transform equals its definition", "statement": "The stock cosine-I transforms equal the DCT-I (forward) and twice the DCT-I (backward) as defined by FFTW.", "quantifier": "all n >= 2, all real data", "why_tests_cant": "all lengths", "anchors": ["include/heffte_r2r_executor.h:cpu_cos1_pre_pos_processor"]}
{"id": "C48", "title": "Scaling of the real-to-real transforms", "statement": "Backward after forward of the sine/cosine transforms multiplies by 4n (4(n-1) for cosine-I) per direction and scale::full inverts exactly that.", "quantifier": "all sizes for which the transform is defined", "why_tests_cant": "all sizes; the size-1 direction of cosine-I divides by zero", "anchors": ["include/heffte_fft3d.h:setup", "include/heffte_r2r_executor.h"]}
{"id": "C49", "title": "C interface error contract", "statement": "Creating a plan through the C interface returns an error code (and no plan) for invalid input, and never lets an exception escape.", "quantifier": "all argument values", "why_tests_cant": "error paths are not tested", "anchors": ["src/heffte_c.cpp:heffte_plan_create", "src/heffte_c.cpp:heffte_set_default_options"]}
{"id": "C50", "title": "use_subcomm restricts work to the given communicator", "statement": "Passing a sub-communicator in the options makes its ranks, and only those, perform the intermediate work.", "quantifier": "all sub-communicators", "why_tests_cant": "tests check only the numerical result", "anchors": ["include/heffte_plan_logic.h:plan_options::use_subcomm", "src/heffte_plan_logic.cpp:plan_operations"]}
{"id": "C51", "title": "The stock FFT stays inside its work memory", "statement": "A stock FFT call changes nothing but its output entries and entries of the work memory of the nodes of its own call graph, each below the length allocated for that node.", "quantifier": "all lengths N >= 1 for which the factorization succeeds, all inputs, strides and directions", "why_tests_cant": "a stray write into memory that is overwritten later is invisible in the results", "anchors": ["include/stock_fft/heffte_stock_algos.h:composite_FFT", "include/stock_fft/heffte_stock_algos.h:rader_FFT", "include/stock_fft/heffte_stock_algos.h:biFuncNode"]}
{"id": "C52", "title": "The distributed backward transform is the inverse 3-D DFT", "statement": "If before the call the local arrays on all ranks hold a global array according to the output boxes, then after backward() they hold its unnormalized inverse three dimensional DFT according to the input boxes; with a real output array they hold its real part.", "quantifier": "all tilings, rank counts, orders, options, batch sizes, in place or not, and data (stock backend, exact arithmetic); boxes not empty on the side where data enters (as documented), lengths that the stock factorization handles", "why_tests_cant": "composition of planner, reshapes and local transforms over unbounded parameters", "anchors": ["include/heffte_fft3d.h:fft3d", "src/heffte_compute_transform.cpp:compute_transform", "src/heffte_plan_logic.cpp:plan_operations"]}
{"id": "C53", "title": "fft3d_r2c computes and inverts the half spectrum", "statement": "forward() of fft3d_r2c gives on the output boxes the values of the three dimensional DFT of the real data; backward() gives the inverse DFT of the spectrum completed by conjugate symmetry.", "quantifier": "all tilings, rank counts, orders, shrunk directions, options and data; batches when the last reshape is present (stock backend, exact arithmetic); boxes not empty on the side where data enters (as documented), lengths that the stock factorization handles", "why_tests_cant": "composition over unbounded parameters, parity of the length", "anchors": ["include/heffte_fft3d_r2c.h:fft3d_r2c", "src/heffte_compute_transform.cpp:compute_transform"]}
{"id": "C54", "title": "The constructors succeed on valid geometries", "statement": "For boxes that tile the world with at least as many indexes in each direction as ranks and fewer than 2^31 indexes the constructors of fft3d and fft3d_r2c return an object, whatever the options.", "quantifier": "all such tilings and all options", "why_tests_cant": "all grids and rank counts", "anchors": ["include/heffte_fft3d.h:fft3d", "include/heffte_fft3d_r2c.h:fft3d_r2c", "src/heffte_plan_logic.cpp:plan_operations"]}
{"id": "C55", "title": "The C interface computes the same transforms", "statement": "A plan created through the C interface reports the sizes of the boxes, and its forward and backward functions compute the three dimensional DFT (half spectrum for r2c plans) with the scaling selected by the integer argument: 1 full, 2 symmetric, anything else none.", "quantifier": "all tilings, rank counts, options and data (stock backend, exact arithmetic); boxes and workspaces below 2^31 entries", "why_tests_cant": "composition of the wrapper with planner, reshapes and transforms over unbounded parameters", "anchors": ["src/heffte_c.cpp:heffte_plan_create", "src/heffte_c.cpp:call_returnable_c", "src/heffte_c.cpp:get_scaling_c"]}
{"id": "C56", "title": "GPU packing moves exactly the sub-box", "statement": "Packing a sub-box of a device array writes its entries in their order to the message and nothing else; unpacking, also into another storage order, puts each entry at its place and changes nothing else; the result does not depend on how the threads are scheduled.", "quantifier": "all boxes, sub-boxes and storage orders, real and complex data, all interleavings of the threads of a launch; arrays whose number of reals fits the index type with room for the grid stride (CUDA, ROCm), all sizes (oneAPI)", "why_tests_cant": "all shapes and schedules; the grid-stride loops only iterate for more than 65536 lines or 1024 entries per line", "anchors": ["src/heffte_backend_cuda.cu:direct_packer", "src/heffte_backend_cuda.cu:transpose_unpacker", "src/heffte_backend_rocm.hip.cpp:direct_packer", "src/heffte_backend_oneapi.cpp:transpose_unpack"]}
{"id": "C57", "title": "GPU conversion and scaling treat every entry exactly once", "statement": "On the device the conversion from real to complex (and back) and the scaling of the result apply to each entry of the array once and to nothing else, or an error is reported.", "quantifier": "all numbers of entries and all interleavings of the threads", "why_tests_cant": "the limits are at 2^30 and 2^31 entries; schedules", "anchors": ["src/heffte_backend_cuda.cu:convert", "src/heffte_backend_cuda.cu:scale_data", "src/heffte_backend_cuda.cu:thread_grid_1d", "include/heffte_backend_cuda.h:data_scaling", "include/heffte_magma_helpers.h:scal"]}
{"id": "C58", "title": "GPU sine and cosine transforms compute the definition", "statement": "The sine and cosine transforms of the GPU backends replace each line by its DCT or DST of the documented kind and change nothing else, using only the workspace they ask for, for every schedule of the threads.", "quantifier": "all lengths and numbers of lines, all alignments of the workspace, all schedules, every correct library of real-to-complex transforms (exact arithmetic)", "why_tests_cant": "all lengths and schedules; alignment of the workspace depends on the allocator", "anchors": ["src/heffte_backend_cuda.cu:cos_pre_pos_processor", "src/heffte_backend_oneapi.cpp:sin_pre_pos_processor", "include/heffte_r2r_executor.h:real2real_executor", "include/heffte_common.h:align"]}
{"id": "C59", "title": "Vendor executors transform the lines of the local box", "statement": "With the cuFFT, rocFFT, MKL and oneMKL backends an executor for one, two or three directions transforms exactly the lines of the local box in these directions, in place, and changes nothing outside of the box.", "quantifier": "all boxes, directions, storage orders and positions in memory, every library that implements the documented layout", "why_tests_cant": "all shapes and orders; the merged executors are only reached for special geometries and options", "anchors": ["include/heffte_backend_cuda.h:cufft_executor", "include/heffte_backend_rocm.h:rocfft_executor", "include/heffte_backend_mkl.h:mkl_executor", "include/heffte_backend_oneapi.h:onemkl_executor"]}
{"id": "C60", "title": "Vendor real-to-complex executors are right with the workspace they request", "statement": "With the cuFFT, rocFFT, MKL and oneMKL backends the real-to-complex and complex-to-real executors transform every line between the real box and the shortened complex box, write nothing else, stay inside the workspace they request, never hand a misaligned array to cuFFT when the user's arrays are aligned, and are not disturbed by what rocFFT writes to its temporary memory and its input.", "quantifier": "all boxes, directions, storage orders, positions in memory, workspace addresses and temporary memory sizes", "why_tests_cant": "the aligned copies are only used for odd blocks; the temporary memory of rocFFT depends on its version and the length", "anchors": ["include/heffte_backend_cuda.h:cufft_executor_r2c", "include/heffte_backend_rocm.h:rocfft_executor_r2c", "include/heffte_backend_mkl.h:mkl_executor_r2c", "include/heffte_backend_oneapi.h:onemkl_executor_r2c", "include/heffte_common.h:align"]}
{"id": "C61", "title": "A batch of real transforms on cuFFT is the transform of each array", "statement": "With the cuFFT backend a batch of real arrays, each after the other in memory, is transformed array by array, as if each was transformed alone.", "quantifier": "all boxes, directions, storage orders and batch sizes", "why_tests_cant": "depends on the parity of the local size on every rank and on the alignment rules of the library", "anchors": ["src/heffte_compute_transform.cpp:compute_transform", "include/heffte_backend_cuda.h:cufft_executor_r2c", "include/heffte_fft3d.h:forward"]}
{"id": "C62", "title": "A whole transform with FFTW or a vendor library is the transform", "statement": "With the backends that rely on a library (FFTW, cuFFT, rocFFT, MKL, oneMKL), and a library that computes the transform of each line it is given, forward and backward on all ranks give the three-dimensional Fourier transform of the global data, for complex data, real data and fft3d_r2c, also when several directions are handed to the library at once; forward followed by backward with matching scaling gives the data back.", "quantifier": "all valid box decompositions, options, batch sizes, scalings, message orders, workspace contents and library workspaces; boxes in standard order or use_reorder on", "why_tests_cant": "which directions are merged depends on the geometry of every rank; every combination of merged stages, idle ranks, in-place and direction has its own path", "anchors": ["include/heffte_fft3d.h:fft3d::setup", "include/heffte_common.h:has_executor2d", "include/heffte_common.h:has_executor3d", "src/heffte_compute_transform.cpp:compute_transform", "include/heffte_backend_fftw.h:fftw_executor", "include/heffte_fft3d_r2c.h:fft3d_r2c"]}
{"id": "C63", "title": "The choice of the backend does not change the result", "statement": "The same global data transformed with the stock backend and with a library backend, with any options on each side, gives the same output arrays in exact arithmetic: complex data in both directions, real data forward and backward.", "quantifier": "all valid box decompositions, pairs of options, batch sizes, entries of the batches, scalings; boxes in standard order or use_reorder on for the library", "why_tests_cant": "the backends plan differently (merged executors, different defaults), so equality must hold across all pairs of plans", "anchors": ["include/heffte_fft3d.h:fft3d", "include/heffte_backend_stock.h:stock_fft_executor", "include/heffte_backend_fftw.h:fftw_executor", "src/heffte_plan_logic.cpp:plan_operations"]}
{"id": "C64", "title": "The sine and cosine transforms of the FFTW backend are the documented kinds", "statement": "With the backends fftw_cos, fftw_sin, fftw_cos1 and fftw_sin1, and a library that computes each line it is given, forward on all ranks gives the three-dimensional transform of the kind REDFT10, RODFT10, REDFT00 or RODFT00 of the global data and backward the one of the kind REDFT01, RODFT01, REDFT00 or RODFT00, also when several directions are handed to the library at once; forward and backward with matching scaling give the data back, whatever the sizes.", "quantifier": "all valid box decompositions, options, batch sizes, scalings, message orders, in place or not; at least two indexes in every direction for fftw_cos1; boxes in standard order or use_reorder on", "why_tests_cant": "the scale factors (8N, 8 times the product of n-1 or n+1) and the merged executors depend on the sizes and on the decomposition; tests use a few sizes and compare with the inverse transform only", "anchors": ["include/heffte_backend_fftw.h:real2real_executor<backend::fftw>", "include/heffte_backend_fftw.h:plan_fftw_r2r", "include/heffte_fft3d.h:fft3d::setup", "include/heffte_fft3d.h:rtransform"]}
{"id": "C65", "title": "The choice of the backend does not change a sine or cosine transform", "statement": "The same global data transformed with the sine or cosine transform of the stock backend and of the FFTW backend, with the same direction and the same scaling, gives the same output, as the table in the documentation of rtransform says for both.", "quantifier": "all valid box decompositions, pairs of options, directions, scalings, batch sizes; transforms of type I (cosine) and type II/III", "why_tests_cant": "tests compare each backend with its own conventions (round trip, or a reference with the factor built in); equality of two backends is not tested", "anchors": ["include/heffte_fft3d.h:rtransform", "include/heffte_fft3d.h:get_scale_factor", "include/heffte_r2r_executor.h:real2real_executor", "include/heffte_backend_fftw.h:plan_fftw_r2r"]}
{"id": "C66", "title": "Packs of complex numbers do the arithmetic of complex numbers in every lane", "statement": "For every vector type that the stock backend can be built with (one complex number, SSE, AVX and AVX512 packs in single and double precision), every operation on a pack (sum, difference, product, quotient, negation, fused multiply-add and multiply-subtract, conjugate, products with i and -i, operations with a real number, modulus, loads with a stride, padded loads) gives in each lane the complex number that the same operation on the numbers of that lane gives; a quotient has no value exactly in the lanes with a zero divisor, a padded load reads only the entries it is asked for and leaves zeros in the rest, and rejects more entries than lanes.", "quantifier": "all eight pack types, all lanes, all values of all lanes, all strides and counts", "why_tests_cant": "tests compare a few fixed packs of one or two types, and only those that the machine of the tests supports; a wrong immediate of a shuffle can be right for symmetric data", "anchors": ["include/stock_fft/heffte_stock_vec_types.h:mm_complex_mul", "include/stock_fft/heffte_stock_vec_types.h:mm_complex_fmadd", "include/stock_fft/heffte_stock_vec_types.h:mm_complex_conj", "include/stock_fft/heffte_stock_vec_types.h:mm_complex_div", "include/stock_fft/heffte_stock_complex.h:Complex", "include/heffte_backend_stock.h:copy_pad"]}
{"id": "C67", "title": "Building the stock backend with vector instructions does not change its results", "statement": "The executors of the stock backend (complex, real to complex, complex to real) give the same output array whether they are built without vector instructions or with any of the pack types, for any number of lines including those that do not fill the last pack, whatever the work memory held before: each line is transformed on its own, the padded lanes are neither read from nor written to the arrays.", "quantifier": "all boxes, storage orders and directions, all pack types, all contents of the work memory, all data, all lengths for the line by line statement and all lengths with a correct transform (C34) for the equality", "why_tests_cant": "a build uses one pack type; tests do not compare builds, and the remainder depends on the number of lines modulo the lanes", "anchors": ["include/heffte_backend_stock.h:plan_stock_fft::execute", "include/heffte_backend_stock.h:stock_fft_executor", "include/heffte_backend_stock.h:stock_fft_executor_r2c", "include/stock_fft/heffte_stock_algos.h"]}
{"id": "C68", "title": "The methods with vectors check their input and return vectors of the documented size", "statement": "forward, backward and backward_real of fft3d and forward and backward of fft3d_r2c called with vectors: when every rank gives a vector with at least as many entries as its box has indexes, every rank gets a vector with exactly size_outbox() (forward) or size_inbox() (backward) entries that holds the transform with the chosen scaling, whatever new memory held; a rank with a shorter vector throws std::invalid_argument and reads nothing outside of the vector.", "quantifier": "all valid geometries, options, ranks, vectors of any length and values, all scalings, all contents of new memory", "why_tests_cant": "tests pass vectors of the exact size and check one exception on one rank", "anchors": ["include/heffte_fft3d.h:fft3d::forward", "include/heffte_fft3d.h:fft3d::backward", "include/heffte_fft3d.h:fft3d::backward_real", "include/heffte_fft3d_r2c.h:fft3d_r2c::forward", "include/heffte_fft3d_r2c.h:fft3d_r2c::backward"]}
{"id": "C69", "title": "The tables of the backends fit together", "statement": "For every backend tag: the methods accept real arrays with real results of the same precision exactly for the sine and cosine tags, and complex results of the same precision exactly for the Fourier tags; whatever options the user gives, an object whose executors only work on reordered data of one direction gets such data, and otherwise the options of the user are kept (but for real data with rocFFT, which reorders); full scaling is exactly the inverse of the factor of a forward and a backward transform; backend::name tells different backends apart.", "quantifier": "all 23 tags, all pairs of types, all options, all sizes for which the transform is defined", "why_tests_cant": "a build enables a few backends, so the tests never see most rows of the tables; names are printed and not compared", "anchors": ["include/heffte_common.h:backend::name", "include/heffte_common.h:backend::check_types", "include/heffte_common.h:has_executor2d", "include/heffte_common.h:has_executor3d", "include/heffte_plan_logic.h:set_options", "include/heffte_fft3d.h:fft3d::setup"]}
{"id": "C70", "title": "The sine and cosine transforms with MKL and on GPUs are the transforms of the stock backend", "statement": "Calls of sine and cosine transforms with the MKL, cuFFT, rocFFT and oneMKL backends return the three dimensional transform of their kind times the factor of the scaling; backward after forward with inverse scalings returns the data; for the same data the results are those of the stock backend, whatever the options, the batches, the order of the threads and the contents and alignment of the workspaces.", "quantifier": "all valid geometries with lengths for which the transform is defined, all options, batches, scalings, directions, data, in place or not, all orders of the statements of the kernels, all contents and parities of the workspaces", "why_tests_cant": "tests compare some sizes with a serial reference on the machine at hand; thread orders and workspaces cannot be enumerated", "anchors": ["include/heffte_r2r_executor.h:real2real_executor", "include/heffte_backend_mkl.h:one_dim_backend", "include/heffte_backend_cuda.h:one_dim_backend", "include/heffte_backend_rocm.h:one_dim_backend", "include/heffte_backend_oneapi.h:one_dim_backend", "src/heffte_backend_cuda.cu", "src/heffte_backend_rocm.hip.cpp", "src/heffte_backend_oneapi.cpp"]}
{"id": "C71", "title": "The reshape does not overflow the chosen index type", "statement": "When the coordinates and the numbers of entries of the boxes fit in the chosen index type (int or long long), creating a reshape, asking for its workspace size and applying it involve no signed integer overflow, no truncated size and no negative MPI count, and move every entry to its place.", "quantifier": "For both index types, all four reshape algorithms, all numbers of ranks and valid distributions, all batch sizes and all block sizes of the packing loops, all data and all arrival orders of messages, with sizes that fit in the type.", "why_tests_cant": "The critical sizes need billions of entries per rank, and the sizes at which some intermediate of type int overflows differ from algorithm to algorithm; tests run with small boxes.", "anchors": ["src/heffte_reshape3d.cpp: compute_overlap_map_direct_pack, compute_overlap_map_transpose_pack, get_max_size, make_reshape3d_alltoall, make_reshape3d_alltoallv, make_reshape3d_pointtopoint, apply_base", "include/heffte_reshape3d.h: reshape3d_base::size_workspace, reshape3d_alltoall::size_workspace, reshape3d_transpose", "include/heffte_pack3d.h: direct_packer, transpose_packer"]}
{"id": "C72", "title": "Reshapes on GPUs do not depend on timing", "statement": "When a reshape runs on GPUs (packing kernels, copies and unpacking in asynchronous streams, MPI with device buffers or with buffers of the host), every rank ends with its part of the global arrays in the new distribution, whatever the timing of the streams, of the threads of a kernel, of the hosts and of the messages, and whatever work was still pending in the streams; all executions leave the same memory, no access is outside the arrays, the promised workspace and the host buffers, and the rest of the array is not touched. With MPI through host buffers this needs that the copy from device to host has ended when the call returns.", "quantifier": "all valid pairs of distributions, all numbers of ranks, the four algorithms and the local transposition, all batch sizes, in place or not per rank, GPU-aware MPI or host buffers, all pending work of the ranks, all arrival orders of the messages, all interleavings allowed by streams, synchronisation and MPI", "why_tests_cant": "a missing synchronisation shows only for some timings; a test run sees one interleaving on one machine, usually one in which the stream is fast enough", "anchors": ["src/heffte_reshape3d.cpp:reshape3d_alltoall::apply_base", "src/heffte_reshape3d.cpp:reshape3d_alltoallv::apply_base", "src/heffte_reshape3d.cpp:reshape3d_pointtopoint::apply_base", "src/heffte_reshape3d.cpp:reshape3d_pointtopoint::no_gpuaware_send_recv", "include/heffte_reshape3d.h:reshape3d_transpose::transpose", "include/heffte_backend_cuda.h:data_manipulator, gpu::transfer", "include/heffte_backend_rocm.h", "include/heffte_backend_oneapi.h"]}
{"id": "C73", "title": "Programs with several plans do not deadlock or mix their messages", "statement": "When all ranks of a communicator construct, use and destroy any number of plans in the same order, with any algorithms and options, and the program's own communication is complete between those calls, the program cannot get stuck however fast the ranks run, whether or not MPI buffers messages and whether or not collective calls synchronise. Every message is received by the same call of the library that sent it and with the same length, members of a communicator make the same collective calls with fitting arguments, and the destructor of a plan frees exactly the communicators that its constructor made. Messages of the user that are open during a transform are not safe: the library communicates on the user's communicator.", "quantifier": "all numbers of ranks, all valid distributions, all options, all sequences of constructions, transforms (both directions, both classes, any batch, in place on any subset of ranks) and destructions of any number of plans, all speeds of the ranks and arrival orders", "why_tests_cant": "deadlocks and mixed-up messages depend on buffering, message sizes and the relative speed of ranks; test machines buffer small messages and ranks run nearly in lockstep", "anchors": ["src/heffte_reshape3d.cpp:reshape3d_pointtopoint::apply_base", "src/heffte_reshape3d.cpp:reshape3d_alltoall", "src/heffte_reshape3d.cpp:reshape3d_alltoallv", "include/heffte_reshape3d.h:make_reshape3d", "include/heffte_utils.h:mpi::new_comm_from_group, comm_free", "include/heffte_fft3d.h:fft3d", "include/heffte_fft3d_r2c.h:fft3d_r2c"]}
{"id": "C74", "title": "The results do not depend on the speed of the ranks", "statement": "Every rank runs the program on its own and only waits for the messages it needs; a rank may be in a later transform, of the same or another plan, while others are still in an earlier one. In every such execution of a program with any number of transforms no step is undefined, the ranks always get on until all of them have completed all transforms after a bounded number of steps, no message is left over, and the arrays hold exactly the transforms of the inputs; a forward transform followed by the inverse one gives back the input.", "quantifier": "all numbers of ranks, all valid distributions, all options and algorithms, all sequences of transforms (both directions, complex and real data, both classes, any batch) of any number of plans, all interleavings of the ranks, all orders in which messages arrive", "why_tests_cant": "the number of interleavings is unbounded and tests run the ranks nearly in lockstep; a message of a later transform taken by an earlier one would only show up when one rank is far ahead", "anchors": ["src/heffte_compute_transform.cpp:compute_transform", "src/heffte_reshape3d.cpp:reshape3d_pointtopoint::apply_base", "src/heffte_reshape3d.cpp:reshape3d_alltoall::apply_base", "src/heffte_reshape3d.cpp:reshape3d_alltoallv::apply_base", "include/heffte_fft3d.h:forward, backward", "include/heffte_fft3d_r2c.h:forward, backward"]}
{"id": "C75", "title": "Vectors in device memory behave like values", "statement": "gpu::vector behaves like a container with values: a copy has the entries of the original and is independent of it, a move leaves the source empty and the target with its entries, assignment to itself changes nothing, release and capture of a raw pointer pass the entries on. No memory is used after it was freed or freed twice, no two vectors share memory, and when all vectors and released pointers are gone all memory has been returned. With CUDA and ROCm this holds for any queues and when allocations fail: the failure is an exception and nothing has changed. With oneAPI it holds when the queues have one context and no allocation fails (counterexamples otherwise).", "quantifier": "all programs over any number of vectors and raw pointers (constructors, copies, moves, assignments, release, capture, destruction, writes), all sizes including zero, all contents, all answers of the allocator", "why_tests_cant": "sequences of operations are unbounded; leaks, double frees and wrong contexts are invisible to tests that compare entries, and failed allocations are not tested", "anchors": ["include/heffte_backend_vector.h:device_vector", "include/heffte_backend_cuda.h:data_manipulator", "include/heffte_backend_rocm.h:data_manipulator", "include/heffte_backend_oneapi.h:data_manipulator"]}
{"id": "C76", "title": "The rounding errors of the stock FFT are bounded", "statement": "In floating point arithmetic with the unit roundoff u every entry of a transform of the stock backend differs from the exact discrete Fourier transform of the same input by at most exp(60 q (N-1) u) - 1 times the sum of the absolute values of the input, where q is the largest prime factor of the length N (at least 2). The result does not depend on what the output and the temporary memory held before. For primes above 100000 a similar bound holds. The growth with the square of a prime length is real (an arithmetic and an input that reach 2 N (N-2) + 3 units).", "quantifier": "all lengths with prime factors up to 100000 (and the lengths of C34), both directions, all inputs, all roundings with relative error u <= 1/8, all contents of the memory", "why_tests_cant": "tests compare a few lengths with a fixed tolerance; the worst input and the growth of the error with the length cannot be sampled", "anchors": ["include/stock_fft/heffte_stock_algos.h:DFT_helper", "include/stock_fft/heffte_stock_algos.h:pow2_FFT_helper", "include/stock_fft/heffte_stock_algos.h:composite_FFT", "include/stock_fft/heffte_stock_algos.h:rader_FFT", "include/stock_fft/heffte_stock_algos.h:omega"]}
{"id": "C77", "title": "Distributed transforms are accurate in floating point", "statement": "In floating point arithmetic with the unit roundoff u, every entry of the output of a forward or backward call of the stock backend (complex data, real data, and fft3d_r2c) differs from the exact scaled three-dimensional transform of the input by at most exp((60 q (N1+N2+N3-3) + 6) u) - 1 times the scaled sum of the absolute values of the input (twice the sum over the stored half for the backward call of fft3d_r2c). A forward call and a backward call with inverse scalings give back the input with twice that number of roundings.", "quantifier": "all valid box geometries and numbers of ranks, options, batches, scalings, inputs, orders of messages and contents of the memory; all lengths with prime factors up to q <= 100000; all roundings with relative error u <= 1/8", "why_tests_cant": "tests compare a few sizes with a fixed tolerance on random data; the worst input and the growth with the size cannot be sampled", "anchors": ["include/heffte_fft3d.h:fft3d::forward", "include/heffte_fft3d.h:fft3d::backward", "include/heffte_fft3d_r2c.h:fft3d_r2c::forward", "include/heffte_fft3d_r2c.h:fft3d_r2c::backward", "include/heffte_backend_stock.h:stock_fft_executor", "include/heffte_pack3d.h:data_scaling"]}
{"id": "C78", "title": "Which calls give the same bits", "statement": "In floating point arithmetic (and for any other number type) two calls of the stock backend on the same input give the same bits if the plans transform the directions in the same order; the number of ranks, boxes, storage orders, message algorithm, use_reorder, batch position, workspaces, old memory contents and in-place calls do not matter. For the same boxes the order is the same whenever use_pencils and the number of subranks are equal. The bits can differ between pencils and slabs and between one and two ranks.", "quantifier": "all arithmetics, all valid geometries, all pairs of options, batches, workspaces and memory contents; witnesses in double for the negative part", "why_tests_cant": "equality of all bits for all inputs, options and layouts cannot be sampled; tests use tolerances", "anchors": ["src/heffte_plan_logic.cpp:plan_operations", "src/heffte_plan_logic.cpp:plan_pencil_reshapes", "src/heffte_plan_logic.cpp:plan_slab_reshapes", "include/heffte_backend_stock.h:stock_fft_executor", "include/heffte_fft3d.h:fft3d::forward"]}
{"id": "C79", "title": "Transforms do not overflow the integer types", "statement": "With the integer types of the code (coordinates int or long long, sizes of the executors and offsets of a batch int) the setup of fft3d and fft3d_r2c and all their calls give exactly what they give with unbounded integers (the same object, size_workspace and outcome, hence the transforms of C40 and C53), if all boxes of the plan fit: box size plus block size, lanes and 3 at most 2^31, batch size times box size below 2^31, the two boxes of each reshape together below the bound of the coordinate type, padded messages below 2^31; a grid with so few indexes in total always fits. With larger boxes this is false although the coordinates and counts fit long long: a batch of two of 2^30 numbers overflows, and a box of 2^32 numbers is silently not copied.", "quantifier": "all valid geometries, numbers of ranks, options, batch sizes, scalings, one-dimensional transforms, data, orders of messages; both coordinate types; stock and FFTW Fourier backends", "why_tests_cant": "overflow shows only for arrays of many gigabytes, far beyond the sizes of unit tests, and depends on intermediate products in every stage of the plan", "anchors": ["src/heffte_compute_transform.cpp:compute_transform", "include/heffte_fft3d.h:fft3d::setup", "include/heffte_fft3d_r2c.h:fft3d_r2c::setup", "include/heffte_backend_stock.h:stock_fft_executor", "include/heffte_backend_fftw.h:fftw_executor", "include/heffte_geometry.h:fft1d_get_howmany", "include/heffte_utils.h:get_max_box_size"]}
{"id": "C80", "title": "Python calls give the transform or an exception", "statement": "heffte.fft3d and heffte.fft3d_r2c of the Python module return a usable plan for valid boxes and raise an exception for unknown backends and directions. A method of a plan (forward, backward, with or without workspace) with arrays whose types belong together and that have one element for each index of the boxes of the rank writes the (scaled) three-dimensional transform into the output and leaves another input unchanged; all other arguments raise an exception and change nothing. split_world gives boxes that tile the world.", "quantifier": "all valid geometries, numbers of ranks, backends, data types, array sizes and strides, scalings, workspaces, data, orders of messages", "why_tests_cant": "the tests of the module use a few plans whose two boxes have the same size, contiguous arrays and correct arguments; whether each wrong argument is rejected needs all combinations of types, sizes and plans", "anchors": ["python/heffte.py:fft3d", "python/heffte.py:fft3d_r2c", "python/heffte.py:heffte_fft_plan.forward", "python/heffte.py:heffte_fft_plan.forward_buffered", "python/heffte.py:heffte_fft_plan.backward", "python/heffte.py:heffte_fft_plan.backward_buffered", "python/heffte.py:split_world", "src/heffte_c.cpp:heffte_plan_create"]}
{"id": "C81", "title": "Planning does not overflow the integer types", "statement": "With the integer types of the code (coordinates int or long long, grids of ranks int, counts long long) the planner, the checks of a debug build, split_world and proc_setup_min_surface give exactly what they give with unbounded integers, if the world starts at the origin, its upper bounds plus one fit in the coordinate type, its count fits in long long, there are fewer than 2^30 ranks, and (for proc_setup_min_surface) a rank has at most 2^30 - 2 indexes on average. Beyond these limits this is false: from 2^30 ranks on no plan can be made, int boxes whose world has 2^31 indexes in one direction overflow, and proc_setup_min_surface overflows with 2^30 indexes per rank and returns a grid for one rank instead of two with 2^30 - 1.", "quantifier": "all valid geometries (also with empty boxes), numbers of ranks, options, directions of r2c, grids, subsets of ranks; both coordinate types", "why_tests_cant": "the limits are reached only with grids and numbers of ranks far beyond unit tests, and intermediate values (differences of coordinates of empty intersections, products in the surfaces) are not visible in the results", "anchors": ["include/heffte_geometry.h:box3d", "include/heffte_geometry.h:find_world", "include/heffte_geometry.h:world_complete", "include/heffte_geometry.h:get_area", "include/heffte_geometry.h:make_procgrid", "include/heffte_geometry.h:make_procgrid2d", "include/heffte_geometry.h:split_world", "include/heffte_geometry.h:maximize_overlap", "include/heffte_geometry.h:proc_setup_min_surface", "src/heffte_plan_logic.cpp:plan_operations"]}
{"id": "C82", "title": "Products of spectra are distributed convolutions", "statement": "A program that transforms two distributed arrays with one object, multiplies the two outputs entry by entry on each rank and transforms back leaves in the array of the first one the cyclic 3-D convolution of the two arrays times the number of indexes and the three scaling factors; it is exactly the convolution if the second array is not scaled and the two other scalings are inverse to each other. The same holds with real data and fft3d_r2c. The sum of the squared absolute values over all ranks is multiplied by the number of indexes and the square of the scaling factor, so it is unchanged with scale::symmetric. The program of benchmarks/convolution.cpp gives the convolution divided by the number of indexes and not the convolution it announces.", "quantifier": "all valid geometries, also with different boxes and orders for data and spectrum, all options, batch sizes, scalings, values, in place or not on each rank, lengths of the loops that cover the boxes and stay in the arrays; stock and library backends", "why_tests_cant": "the identity mixes the values of all the ranks and holds for every geometry; the benchmark prints times only, so its wrong scaling is not seen", "anchors": ["benchmarks/convolution.cpp:benchmark_convolution", "include/heffte_fft3d.h:fft3d::forward", "include/heffte_fft3d.h:fft3d::backward", "include/heffte_fft3d_r2c.h:fft3d_r2c::forward", "include/heffte_fft3d_r2c.h:fft3d_r2c::backward"]}
{"id": "C83", "title": "Plans in Fortran variables live exactly as long as their owner", "statement": "In a Fortran program the variable to which a new plan is assigned owns the plan, v = w lets v name the plan of w, and a plan is destroyed when its owner is released or gets another value. A program in which new plans are assigned to variables without a plan or with an existing plan, v = w is used when v holds no plan (or v owns its plan and w holds none, or both name the same plan, or w does not own its plan and both plans exist), and methods are called for existing plans, has no undefined behaviour: every plan is destroyed at most once and not used afterwards, every call reaches the plan that was last assigned, calls for variables without a plan have no effect but the error code, and a program that releases all its variables has destroyed all its plans. Ranks that execute the same program execute the same calls for the same plans. The constructors give the plan of the boxes and options that the integers stand for, and forward and backward compute the transform. Outside these rules the assignment makes two owners, destroys a plan that the variable does not own, or leaks a plan.", "quantifier": "all programs of assignments, releases and method calls on any number of variables, all allocators, all constructor arguments, also constructors that throw; for the transforms all valid geometries, options, scalings, batches (stock)", "why_tests_cant": "whether a plan is destroyed once depends on the whole history of the program and on the addresses the allocator returns; the tests create and release one variable", "anchors": ["fortran/generated/heffte_stockFORTRAN_wrap.cxx:SWIG_assign", "fortran/generated/heffte_stockFORTRAN_wrap.cxx:copy_alias", "fortran/generated/heffte_stockFORTRAN_wrap.cxx:_wrap_new_heffte_fft3d_stock__SWIG_4", "fortran/generated/heffte_stock.f90:swigf_heffte_fft3d_stock_release", "fortran/generated/heffte_stock.f90:swigf_heffte_fft3d_stock_op_assign__", "include/heffte_fft3d.h:fft3d::fft3d", "include/heffte_fft3d_r2c.h:fft3d_r2c::fft3d_r2c"]}
{"id": "C84", "title": "A call changes only the documented part of the output array", "statement": "A call of forward or backward with a batch of n writes only to the first n * size_outbox() (backward: size_inbox()) entries of the output array; in place also to the first n * size_inbox() entries of the same array (backward: size_outbox()). All entries behind, and all entries of the input array of a call that is not in place, have the same values as before, on every rank, so that several arrays can lie behind each other in one allocation.", "quantifier": "all valid geometries, options, scalings, batches, ranks, values and lengths of the arrays, in place or not, for complex, real and sine/cosine transforms (stock, and exact libraries for complex data)", "why_tests_cant": "the tests use vectors of exactly the documented size, so nothing that is written behind the documented part can be seen, and a sanitizer sees only allocations", "anchors": ["include/heffte_fft3d.h:fft3d::forward", "include/heffte_fft3d.h:fft3d::backward", "include/heffte_fft3d_r2c.h:fft3d_r2c::forward", "src/heffte_compute_transform.cpp:compute_transform", "src/heffte_reshape3d.cpp:reshape3d_alltoallv::apply_base", "include/heffte_backend_stock.h:stock_fft_executor"]}
{"id": "C85", "title": "The benchmark speed3d checks what it says", "statement": "For every size, every pair of processor grids, every batch and every number of runs that it accepts, speed3d creates boxes that tile the index space, calls forward and backward on arrays of the documented sizes only, and, in exact arithmetic, reports the error zero: each run ends with the data it began with.", "quantifier": "all sizes, numbers of ranks, grids, plan options, batches, numbers of runs, data, message orders; c2c, r2c and r2r benchmark with the stock backend", "why_tests_cant": "the benchmark is itself the test that users run on their machine; a wrong reported error blames the library, and the cases with uneven boxes and batches are not run by the test suite", "anchors": ["benchmarks/speed3d.h:benchmark_fft", "include/heffte_geometry.h:split_world", "include/heffte_fft3d.h:fft3d::forward", "include/heffte_fft3d.h:fft3d::backward", "test/test_common.h:get_int_arg"]}
{"id": "C86", "title": "Distributed sine and cosine transforms are accurate in floating point", "statement": "In floating point arithmetic with the unit roundoff u, every entry of the output of a forward or backward call of stock_cos, stock_sin or stock_cos1 differs from the exact scaled three-dimensional DCT-II/III, DST-II/III or DCT-I of the input by at most exp((60 q (M1+M2+M3-3) + 18) u) - 1 times 8 (forward) or 64 (backward) times the scaled sum of the absolute values of the input, where M = 4N (4(N-1) for the cosine-I transform) are the lengths of the extended lines. A forward call and a backward call with inverse scalings give back the input up to twice that number of roundings relative to 64 times the sum of the absolute values.", "quantifier": "all valid box geometries and numbers of ranks, options, batches, scalings, calls in place and out of place, inputs, orders of messages and contents of the memory and the workspace; all lengths whose extended lines have prime factors up to q <= 100000; all roundings with relative error u <= 1/8", "why_tests_cant": "tests compare a few sizes with a fixed tolerance on random data; the worst input and the growth with the size cannot be sampled", "anchors": ["include/heffte_r2r_executor.h:real2real_executor", "include/heffte_r2r_executor.h:cpu_cos_pre_pos_processor", "include/heffte_r2r_executor.h:cpu_sin_pre_pos_processor", "include/heffte_r2r_executor.h:cpu_cos1_pre_pos_processor", "include/heffte_fft3d.h:fft3d::setup", "include/heffte_fft3d.h:fft3d::get_scale_factor", "include/heffte_backend_stock.h:stock_fft_executor_r2c"]}
{"id": "C87", "title": "The results of several calls obey the laws of the Fourier transform", "statement": "Between the values at the indexes of the input and output arrays of several calls: (1) equal input gives equal output, whatever the number of ranks, the boxes, the storage orders, the options, the backend, the position in the batch; also when the indexes are renamed by a translation and a permutation of the axes; (2) a call on a combination a x + b y gives the same combination of the outputs; (3) a periodic translation of the input by t multiplies the entry k by exp(-+2 pi i <t,k>); (4) conjugate input gives the conjugate at the negative frequencies, real input gives a conjugate symmetric spectrum across all ranks; (5) the backward transform is the forward transform of the mirrored input; (6) a product of functions of one index each gives the product of one-dimensional transforms, a single one gives a wave; (7) a backward call to real data is real-linear, gives the real part of the complex call, and fft3d_r2c on half of a symmetric spectrum gives what fft3d gives on the whole.", "quantifier": "all pairs or triples of calls of objects with valid boxes on any numbers of ranks (C87 holds across different jobs), all options, batches, scalings, calls in place or not, orders of messages, stock backend or any library that computes the transforms; all inputs", "why_tests_cant": "tests compare single runs with a reference on a few rank counts; agreement between two arbitrary layouts has too many pairs", "anchors": ["include/heffte_fft3d.h:fft3d::forward", "include/heffte_fft3d.h:fft3d::backward", "include/heffte_fft3d_r2c.h:fft3d_r2c::forward", "include/heffte_fft3d_r2c.h:fft3d_r2c::backward", "src/heffte_plan_logic.cpp:plan_operations", "src/heffte_compute_transform.cpp:compute_transform"]}
{"id": "C88", "title": "The log of events is complete, well formed and agrees between the ranks", "statement": "With tracing enabled, the file of a rank has one line for each event of the calls between init_tracing and finalize_tracing, in the order of the ends, with the name, the start and a duration that is not negative; two events are disjoint or one contains the other; nothing recorded before init_tracing is in the file; every reshape, copy and transform of a call happens during an event with a fitting name; each message is in the log of the sender and of the receiver with the same size, and with the rank of the partner. The file has the documented name.", "quantifier": "all sequences of calls with any plans, boxes, algorithms, batches, orders of messages; all clocks that do not go backwards; all names", "why_tests_cant": "the test only checks that a file exists; the contents depend on the control flow of all 768 cases and on the messages", "anchors": ["include/heffte_trace.h:add_trace", "include/heffte_trace.h:init_tracing", "include/heffte_trace.h:finalize_tracing", "src/heffte_reshape3d.cpp:reshape3d_pointtopoint::apply_base", "src/heffte_reshape3d.cpp:reshape3d_pointtopoint::no_gpuaware_send_recv", "src/heffte_compute_transform.cpp:compute_transform", "include/heffte_fft3d.h:fft3d::apply_scale"]}
{"id": "C89", "title": "A call communicates exactly the entries that change their owner", "statement": "In a forward or backward call with point-to-point messages or MPI_Alltoallv, the number of values that a rank sends to other ranks is the batch size times the number of points that it has before and not after each of the reshapes of the plan, and what it receives likewise; point-to-point sends one message per reshape and pair of different ranks with common points, of the size of the overlap, and none else. MPI_Alltoall is called at most once per reshape, with the largest overlap among the members of the communicator as the size of all blocks, and so sends at least as much. If no reshape changes the bounds of a box (e.g. one rank), a call makes no MPI call at all.", "quantifier": "all plans of all geometries, numbers of ranks, options, algorithms, batch sizes, both directions, all ranks", "why_tests_cant": "tests compare the results; sending too much, twice, to itself, or empty messages does not change the results", "anchors": ["src/heffte_reshape3d.cpp:reshape3d_pointtopoint::apply_base", "src/heffte_reshape3d.cpp:reshape3d_alltoallv::apply_base", "src/heffte_reshape3d.cpp:reshape3d_alltoall::apply_base", "src/heffte_reshape3d.cpp:get_max_size", "include/heffte_reshape3d.h:make_reshape3d"]}
{"id": "C90", "title": "Plans can be moved between variables, and all their resources are released exactly once", "statement": "A program makes plans in variables, moves them into new variables or over existing ones (also onto themselves), calls them and lets the variables go out of scope, in any order. A call uses the plan that value semantics says; every piece of memory, communicator, FFT-library plan and queue of a plan is acquired once, used only while it is held, released exactly once and no later than the end of the last variable that has the plan; undefined behaviour occurs exactly when a plan is called after it has been moved away (or a variable does not exist). If all ranks run the same program, they do not deadlock.", "quantifier": "all programs over any number of variables and plans, all backends, all plans of all geometries and options, all numbers of ranks, all interleavings of the ranks", "why_tests_cant": "the operations are made by the compiler, so there is no code to test; leaks, double releases and uses after release need not be visible in the results; the number of programs is unbounded", "anchors": ["include/heffte_fft3d.h:fft3d", "include/heffte_fft3d_r2c.h:fft3d_r2c", "include/heffte_reshape3d.h:reshape3d_alltoall::~reshape3d_alltoall", "include/heffte_reshape3d.h:reshape3d_alltoallv::~reshape3d_alltoallv", "include/heffte_magma_helpers.h:magma_handle", "src/heffte_magma_helpers.cpp:magma_handle<tag::gpu>::~magma_handle", "include/heffte_backend_fftw.h:fftw_executor::make_plan"]}
{"id": "C91", "title": "A transform of the stock backend needs of the order of N log N operations", "statement": "The number of operations of complex numbers and of evaluations of sine and cosine that the stock backend makes for one line of length N depends on N only, not on the data or the direction, and is at most a constant times N log N; in terms of the prime factors, at most 3 N (S - 1) operations and N (2 W - 1) evaluations, S the sum and W the number of the prime factors of N.", "quantifier": "all lengths N, all inputs, both directions, all contents of the work memory", "why_tests_cant": "Timing a few lengths says nothing about the others: the algorithm is chosen by the factorisation of the length, and the lengths for which it is slow (large primes) are not among those that are tested", "anchors": ["include/stock_fft/heffte_stock_algos.h: DFT_helper, pow2_FFT_helper, pow4_FFT_helper, pow3_FFT_helper, composite_FFT, rader_FFT, omega::get", "include/stock_fft/heffte_stock_tree.h: fptrFactorHelper, init_fft_tree"]}
{"id": "C92", "title": "Threads can use one plan at the same time on separate arrays", "statement": "Several threads call the same const method (forward or backward) of the executors of one plan of the stock backend, each on its own arrays. Whatever the order in which their steps alternate, nothing undefined happens and every thread ends with the transforms of its own data.", "quantifier": "all numbers of threads, all interleavings of their steps, all lengths, all data", "why_tests_cant": "The failures need a particular interleaving, a race that a test meets rarely if ever; and whether there is one depends on the factorisation of the length", "anchors": ["include/heffte_backend_stock.h: stock_fft_executor::forward, stock_fft_executor::backward, make_plan, plan_stock_fft::execute", "include/stock_fft/heffte_stock_algos.h: composite_FFT, biFuncNode::workspace"]}
{"id": "C93", "title": "Laws between sine and cosine transforms", "statement": "The arrays of several sine or cosine transforms satisfy the laws that programs use. The result does not depend on the backend (stock, MKL, cuFFT, rocFFT), the ranks, the boxes, the storage orders, the batch or the order of the axes. Transforms of combinations are combinations of transforms. Forward, an input read from the other end gives the output with alternating signs; backward, an input with alternating signs gives the output from the other end. The sine transform read from the other end is the cosine transform of the input with alternating signs, and the same for the backward transforms. A product of functions of one index each gives the product of the one dimensional transforms, scaled as requested.", "quantifier": "all worlds of allowed lengths, all numbers of ranks, boxes and storage orders that the constructor accepts, all batches, all scalings, all real data, all pairs of backends", "why_tests_cant": "The laws relate calls of different objects, backends and process counts on arbitrary data; the tests compare single calls with a reference for a few sizes", "anchors": ["include/heffte_fft3d.h: fft3d::forward, fft3d::backward, get_scale_factor", "include/heffte_r2r_executor.h: real2real_executor, cpu_cos_pre_pos_processor, cpu_sin_pre_pos_processor, cpu_cos1_pre_pos_processor", "include/heffte_backend_cuda.h: one_dim_backend<backend::cufft_cos>", "include/heffte_backend_rocm.h: one_dim_backend<backend::rocfft_sin>", "include/heffte_backend_mkl.h: one_dim_backend<backend::mkl_cos>"]}
{"id": "C94", "title": "Process grids reported for a plan", "statement": "The three numbers that compute_grids reports for each of the five shapes of a plan are the dimensions of the process grid that the boxes of this shape form, and their product is the number of ranks that hold indexes. The benchmark prints a dash in place of a grid exactly when no reshape is applied.", "quantifier": "all plans between input and output distributions that form grids, all numbers of ranks, worlds, storage orders, options and real-to-complex directions", "why_tests_cant": "No test calls compute_grids, and its result depends on the geometry, the options and the number of ranks together", "anchors": ["src/heffte_plan_logic.cpp: compute_grids, plan_operations, plan_pencil_reshapes, plan_slab_reshapes", "include/heffte_plan_logic.h: compute_grids", "benchmarks/speed3d.h: print_proc_grid"]}
{"id": "C95", "title": "Distributed convolutions are accurate in floating point", "statement": "A program that transforms two distributed arrays with one object of the stock backend, multiplies the outputs entry by entry on each rank and transforms back gives, in floating point arithmetic with the unit roundoff u, in every entry the cyclic 3-D convolution (times the number of indexes and the scaling factors) up to exp((3 R + 21) u) - 1 times the product of the sums of the absolute values of the two arrays (times the same factors), where R = 60 q (N1+N2+N3-3). With a second array that is not scaled and inverse scalings the factors are one. With real data and fft3d_r2c the bound has twice the number of entries of the half spectrum in place of the number of indexes. The program of benchmarks/convolution.cpp has the same relative bound around the convolution divided by the number of indexes.", "quantifier": "all valid box geometries and numbers of ranks, options, batches, scalings, inputs, orders of messages, contents of the memory, in place or not on each rank (complex data), lengths of the loops that cover the boxes and stay in the arrays; all lengths with prime factors up to q <= 100000 that the factor search can reach; all roundings with relative error u <= 1/8, without overflow and underflow", "why_tests_cant": "the worst input and the growth of the error with the size cannot be sampled, and no test of the library runs a convolution", "anchors": ["benchmarks/convolution.cpp:benchmark_convolution", "include/heffte_fft3d.h:fft3d::forward", "include/heffte_fft3d.h:fft3d::backward", "include/heffte_fft3d_r2c.h:fft3d_r2c::forward", "include/heffte_fft3d_r2c.h:fft3d_r2c::backward"]}
{"id": "C96", "title": "Sums of squares of real data and half spectra", "statement": "After the forward call of an fft3d_r2c the sum of the squared absolute values over all entries on all ranks, where an entry counts once if its index in the shortened direction is the first one or the middle one of an even length and twice otherwise, is the sum of the squares of the real data times the number of indexes and the square of the scaling factor; with scale::symmetric it is the sum of the squares of the data. The sum without the weights is at most this value and at least half of it, and it is different in general. With real data and an fft3d, which stores the whole spectrum, the sum without weights has the value.", "quantifier": "all valid geometries, shortened directions, options, batch sizes (for fft3d_r2c under the guard of C53), scalings and values; stock and library backends", "why_tests_cant": "the identity sums over all the ranks and all the values; odd and even lengths and every choice of boxes have to be right", "anchors": ["include/heffte_fft3d_r2c.h:fft3d_r2c::forward", "include/heffte_fft3d.h:fft3d::forward", "include/heffte_geometry.h:box3d::r2c"]}
{"id": "C97", "title": "Inner products can be computed from the spectra", "statement": "Take two calls in the same direction on the same input and output boxes. Multiply the two local output arrays position by position, the first one conjugated, and add up the products over all the ranks. The result is the same expression for the two inputs times the number of indexes and the factors of the two scalings; it is unchanged if the scalings undo each other, for example twice symmetric. For two forward calls of fft3d_r2c objects with real data this holds for the real part, when each entry has the weight of C96.", "quantifier": "all valid geometries, options, scalings, batch sizes, entries of the two batches and values; each of the calls with the stock backend or a library, complex or real data, in place or not", "why_tests_cant": "the identity needs the same layout in both calls, with any options and backends, and sums over all the ranks and values", "anchors": ["include/heffte_fft3d.h:fft3d::forward", "include/heffte_fft3d.h:fft3d::backward", "include/heffte_fft3d_r2c.h:fft3d_r2c::forward"]}
