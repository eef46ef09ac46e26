# Design of the heFFTe model and proofs

Subject: heFFTe (C++ distributed FFT) at the pinned commit in `/repo`, read as
text, never built or run. Everything below is about the Lean model in
`lean/Verif`; the tie to the code is the citation on each definition.

## Trusted base

* Lean 4.33 kernel, plus the axioms `propext`, `Classical.choice`, `Quot.sound`
  (only these; `#print axioms` is run on the property theorems, see
  `lean/Verif/Axioms.lean`). No own axioms, no `native_decide`/`bv_decide`.
* The reading of the C++ code recorded in the `/repo` citations.
* The semantics assumed for external code (stated where it is used):
  `MPI_Alltoall(v)`, matched `MPI_Isend/Irecv/Waitany`, `MPI_Allgather`,
  the FFTW advanced interface addressing rule.

### Modelling conventions

* `index`/`int`/`long long` are `Int` (unbounded) except where the property is
  about narrowing (`maximize_overlap` stores a 64-bit count in an `int`; that
  narrowing is modelled with wrap-around).  `C10` and the `*_bounds` theorems
  state when the unbounded reading is faithful; `ReshapeInt` (C71) does so for the whole
  reshape, `TransformInt` (C79) for the transforms and `PlanInt` (C81) for the planner.
* Arrays are `List`s, addresses are `Int`s. An out-of-bounds access is the
  distinct outcome `none` (undefined behaviour), as is a null dereference or a
  failed `std::vector` access. Exceptions are a separate `Except` outcome.
* `assert` is modelled in both flavours where it matters: the checks in
  `plan_operations` live inside `assert`, so they are a hypothesis
  (`world_complete` succeeded) and not a guarantee in release builds.
* Floating point: arithmetic is exact in all statements but C76, C77, C78 and C86. FFT statements
  are over a field with suitable roots of unity (instantiated with the complex
  numbers). The algorithms of the stock backend only use the operations of their
  number type, so C76 to C78 run the same definitions with rounded operations.
  Overflow, underflow, infinities and NaN are not modelled.
* Of the GPU code the kernels and their launches are modelled (`Gpu`), and the
  executors of cuFFT, rocFFT, oneMKL and MKL (`Vendor`), not the streams and
  allocations. Tracing (C88), the Python wrapper (C80) and the Fortran wrapper (C83) are modelled on their own.

## What is modelled (module by module)

| Lean module | code |
|---|---|
| `Basic`, `Geometry` | `include/heffte_geometry.h` (all functions but the MPI gather) |
| `Plan` | `src/heffte_plan_logic.cpp` (all functions), `plan_options`, `logic_plan3d` |
| `Pack` | `include/heffte_pack3d.h` CPU packers (address level), data scaling |
| `Reshape` | `src/heffte_reshape3d.cpp`, `include/heffte_reshape3d.h` CPU path: overlap maps, groups, alltoall, alltoallv, p2p, transpose, factory |
| `Exec` | `fft1d_get_howmany/stride`, stock executors, FFTW executor addressing |
| `Transform` | `src/heffte_compute_transform.cpp`, `fft3d::setup`, `fft3d_r2c::setup`, buffer layout |
| `StockTree`, `StockFFT` | `include/stock_fft/heffte_stock_tree.h`, `heffte_stock_algos.h` |
| `Simd`, `SimdLemmas`, `SimdFft`, `SimdExec` | `include/stock_fft/heffte_stock_vec_types.h`, `heffte_stock_complex.h`, `copy_pad` and the plans of `heffte_backend_stock.h` with packs |
| `VectorApi` | the methods with vectors of `heffte_fft3d.h` and `heffte_fft3d_r2c.h` |
| `Tags` | the tables of the backends in `heffte_common.h`, `heffte_plan_logic.h`, `heffte_fft3d.h` and `heffte_backend_*.h` |
| `DeviceTrig` | the calls of the sine and cosine transforms on devices: `real2real_executor` with the kernels of `GpuTrig` |
| `ReshapeInt` | the reshape of `heffte_reshape3d.cpp`/`heffte_pack3d.h` again, with the machine types of the code; `ReshapeIntLemmas`, `ReshapeIntMain` prove that it equals `Reshape` in a range of sizes |
| `Async` | asynchronous execution: hosts, streams and MPI operations, the orders they guarantee, executions as interleavings of single accesses, race freedom |
| `GpuReshape` | the GPU branches of `heffte_reshape3d.cpp` and the local transposition: what the host does and which cells each operation moves; `GpuColl`, `GpuCollRun`, `GpuP2p*`, `GpuLocal`, `GpuMain`, `GpuBounds`, `GpuCall` hold the proofs |
| `Mpi`, `MpiSession` | what MPI guarantees about the progress of ranks that run at their own speed; the calls of MPI made by constructors, transforms and destructors of any number of plans on one communicator; `MpiProgress`, `MpiPieces`, `MpiMain` hold the proofs |
| `Net`, `OwnSpeed` | networks of processes with ordered channels; the transforms of `Transform` by ranks that run at their own speed, with the data in the messages; `OwnPaths`, `OwnFacts`, `OwnStage`, `OwnStage2`, `OwnCalls`, `OwnFree`, `OwnMain`, `OwnPlans` hold the proofs |
| `Rounding` | `Complex<F,1>` of `heffte_stock_complex.h` and `omega` of `heffte_stock_algos.h` in floating point arithmetic; `Graded` counts the roundings in the algorithms of `StockFFT`, `RoundLemmas` bounds the error of each operation, `Accuracy` puts them together |
| `NumberCalls`, `FloatCalls`, `PlanDirs` | the calls of `fft3d` and `fft3d_r2c` of the stock backend with any type of numbers and any operations; the same in floating point arithmetic with the scaling in `double`; the order of the directions of two plans |
| `TransformInt`, `TransformIntLemmas`, `TransformIntMain` | the executors, `setup`, the sizes of the workspace and the calls of `fft3d` and `fft3d_r2c` with the integer types of the code (`int`, `long long`, `size_t`), on top of the reshape of C71 |
| `Python` | `fft3d`, `fft3d_r2c`, the four methods of a plan, its destructor and `split_world` of `python/heffte.py`, on top of `CApi` |
| `PlanInt`, `PlanIntLemmas` | the functions on boxes and grids and the planner of `Geometry` and `Plan` with the integer types of the code; proofs that nothing overflows within bounds |
| `SpecConv`, `ConvLemmas` | the convolution and the sum of squares of functions on the world; the convolution theorem and Parseval for the 3-D transform |
| `Convolution`, `Energy` | the program of `benchmarks/convolution.cpp` on all the ranks, for any calls and any numbers (exact in C82, rounded in C95); sums over distributed arrays |
| `SpecFortran` | what a Fortran program may expect of its plan variables: owners, names, lifetimes of plans |
| `Fortran`, `FortranLemmas` | the generated Fortran wrapper: `SwigClassWrapper`, `SWIG_assign`, `release`, constructors; the invariant between memory and variables |
| `Tails` | the calls on longer arrays: every operation of the model does the same on an array with more entries at its end and keeps these |
| `Speed` | `benchmarks/speed3d.h` as a program: grids, boxes, arrays, warm-up, runs, reported error |
| `FloatTrig` | the sine and cosine transforms in floating point arithmetic: the calls, the scaling factors in `double`, the errors of a line and of three directions |
| `SpecLaws`, `LawLemmas`, `Laws` | entries of distributed arrays by index; the laws of the transform (translation, axes, linearity, conjugation, reversal); all the calls of all the objects as relations between entries |
| `SpecTrace`, `Trace`, `TraceLemmas` | `add_trace`, `init_tracing`, `finalize_tracing` (heffte_trace.h) and all the places of reshape3d.cpp, compute_transform.cpp, fft3d.h, fft3d_r2c.h that record events |
| `SpecVolume`, `VolumeLemmas` | nothing new: the amounts in the MPI calls of `MpiSession` (reshape3d.cpp:112-119, 270-274, 398-419, 533-714) |
| `SpecPlanVars`, `PlanVars`, `PlanVarsLemmas`, `PlanVarsMain`, `PlanVarsMpi` | the compiler-made moves, assignments and destructors of `fft3d` and `fft3d_r2c` (heffte_fft3d.h:574-692, heffte_fft3d_r2c.h:300-380), the plans inside of the executors of all the backends (which are made when, which is used by which call), `magma_handle` (heffte_magma_helpers.h:30-59, heffte_magma_helpers.cpp:29-55) |
| `Cost`, `CostLemmas`, `CostBounds` | the algorithms of the stock FFT once more, with a counter for the operations of complex numbers and for `omega::get` (algos.h:35-40, 91-312, 329-440) |
| `Threads`, `ThreadsLemmas` | `forward` and `backward` of `stock_fft_executor` step by step (heffte_backend_stock.h:475-501), `make_plan` (533-535), the two loops of `composite_FFT` (algos.h:289-311), for threads that alternate in any way |
| `SpecTrigLaws`, `TrigLawLemmas`, `TrigLaws` | spec: entries of distributed real arrays, indexes from the other end, alternating signs; equations between the weights of the sine and cosine transforms; calls of `fft3d` with the stock, MKL, cuFFT and rocFFT sine and cosine executors (`Performed` for these transforms) |
| `SpecGrids`, `Grids` | spec: boxes that form a grid of processes; `compute_grids` and the lines of the benchmark that print its result; what keeps a grid in the planner |
| `SpecHalf`, `HalfEnergy` | spec: how often an entry of a half spectrum occurs in the full one; weighted sums over distributed half spectra |
| `Inner` | inner products of distributed arrays, position by position, and with weights for half spectra; Plancherel's theorem |
| `DeviceVector`, `SpecVector` | the vectors in device memory (`gpu::device_vector` and the `data_manipulator` of CUDA, ROCm, oneAPI) as programs over a heap of blocks; the values a program expects; `DeviceOwners`, `DeviceSteps` hold the proofs |
| `SpecFlow`, `TransformLemmas`, `RankRun`, `RankFlow`, `StageRun`, `PortLemmas`, `WorkLemmas`, `TransformMain`, `FlowTable` | proof that the calls on all ranks follow the schedule |
| `PlanRun`, `PlanCall`, `ExecFields` | the plan, the executors and the reshapes as needed by a call |
| `Api`, `Calls`, `StockCalls`, `CallData` | `fft3d.h`, `fft3d_r2c.h`: constructors, `size_workspace`, forward/backward, scaling |
| `SpecDft`, `Dft3` | specification: 3-D DFT, half spectrum; lines to 3-D |
| `Gauss` | Gaussian integer kernel for lengths 1, 2, 4, to run the model on witnesses |
| `R2R`, `R2RLemmas`, `R2RCalls` | `include/heffte_r2r_executor.h`: pre/post processing, extended box, workspace; the executor on a box and in calls |
| `SpecR2R`, `TrigLemmas` | specification: DCT/DST of the FFTW manual; trigonometric sums |
| `SpecWave`, `WaveLemmas` | specification: the kinds of FFTW for the sine and cosine backends of FFTW, inverses, three dimensions |
| `CApi` | `src/heffte_c.cpp`: plan creation and destruction, error paths, sizes, calls |
| `Gpu`, `GpuLemmas`, `GpuTrig` | `src/heffte_backend_cuda.cu`, `heffte_backend_rocm.hip.cpp` (same kernels), `heffte_backend_oneapi.cpp`: kernels and launches; `magma_handle::scal`; the GPU form of the sine/cosine executor |
| `Vendor`, `VendorLemmas`, `VendorReal` | `heffte_backend_cuda.h`, `heffte_backend_rocm.h`, `heffte_backend_mkl.h`, `heffte_backend_oneapi.h`: executors and plans; the first and last executor on a batch |

Specifications (`Verif/Spec*.lean`) are written independently: membership of an
index triple in a box, tiling, "rank r holds the global array according to its
box", sums defining the DFT/DCT/DST.

## Plan per property

| id | how |
|---|---|
| C01, C02 | membership/cardinality specs over `Finset`; direct proof |
| C03 | counting argument on disjoint finsets; both directions, error branches |
| C04 | fold invariant |
| C05, C06 | monotone cut points `low + i*(n/p) + min i (n%p)`; each index has a unique cell |
| C07, C08 | `get_factors` is exactly the list of factor pairs; min over list |
| C09 | false in general: witness; partial theorem for the grids that are returned with full product |
| C10 | loop invariant (`taken`/remaining); the guard `count < 2^31` is forced; negation witness at `2^31` |
| C11, C12 | from C05, C08, C10 |
| C13-C18 | planner decision tree, generic lemma for each shape constructor; witnesses for r2c with empty rank 0 box |
| C19 | from split_world/maximize_overlap with remap |
| C20, C21 | move lists (address pairs), injectivity, blocked loops enumerate the index set |
| C22-C30 | all-ranks model, phase-level move lists, MPI semantics at element level |
| C31-C33 | enumeration of addresses, mixed radix bijection; FFTW addressing rule; witnesses for permuted order |
| C34-C37, C51 | recursion on the factor tree; algebra of roots of unity; number theory from Mathlib |
| C39 | conjugate symmetry of the DFT of real data, one line |
| C42 | `compute_transform` as instruction lists per rank; symbolic replay against the schedule over the whole table of situations; simulation of all ranks; witnesses for the bad situations |
| C38, C40, C41, C43, C52, C53 | C42 with the fields of the stock executors (C31, C32, C34), the reshapes (C22) and the planner (C13-C18); the chain of line transforms is the 3-D sum; inversion by orthogonality of roots |
| C44 | layout inequalities; no undefined behaviour in the runs of C40 and C53 |
| C54 | totality of the planner (C14) and of the setup |
| C45-C48 | trigonometric sums, DFT of the extended signal |
| C49, C50 | small state machine of the wrapper; exact condition, witnesses |
| C56-C58 | a kernel is the list of statements of each thread; a launch is any permutation of all of them; cover and consistency of the writes |
| C59-C61 | the plans of the libraries as layouts; equal to the FFTW and stock layouts of C31-C33; blocks through the workspace entry by entry |
| C62 | `makeFft3d .fftw` with any kernel that computes the lines; which stages are joined is the same on all ranks with data (`plan_joints`, from the planner), the joined executors are one-direction executors in a row (C33) |
| C63 | C40/C52 and C62 have the same right-hand side |
| C64 | the executors of C62 with any kernel that computes the documented kinds (`SpecWave`, after the FFTW manual); `RODFT00` is its own inverse up to 2(n+1) by the orthogonality of the roots of unity |
| C65 | C45 and C64 have proportional right-hand sides; the factor is 1 in two of the six cases, in the others `C65_false` |
| C66 | each intrinsic is a function of the lanes; case split over pack types and lanes, ring identities |
| C67 | a lane is a map that commutes with the arithmetic, hence with the whole recursion (`stockFFT_map`, no field laws used); groups of lines one after the other; then C31, C32 |
| C68 | size check, new output and workspace, call of the method with arrays: reduced to C40, C45, C52, C53 with arbitrary contents of new memory; ranks that throw are listed, the others are not followed |
| C69 | tables row by row; case split over all 23 tags; the factors by field identities for all sizes; `C69_objects` ties the tables to the objects of the other properties; `C69_names_false` |
| C70 | C58 gives the lines of a device, `trig_does` those of MKL; both are inputs of the call theorem of C45, which does not depend on the backend; agreement as in C63 |
| C71 | `ReshapeInt`: every `int`, `index` and `size_t` operation of the factories, of `size_workspace` and of `apply_base` with overflow as `ub` and conversions as in the code; equality with `Reshape` under size bounds gives the result from C24 - C26; partial, the unrestricted claim is refuted by four concrete geometries |
| C72 | `GpuReshape`: the calls on all ranks as programs of hosts (launch, synchronise, MPI) over an axiomatic order `Guarantee`; conflicting operations are shown to be ordered, so every execution equals the operations one after the other, whose result follows from the layout lemmas of C24 - C26; the need of a finished copy to the host is a proved negation |
| C73 | small-step model: what may happen (`MpiMove`, buffered) and what must be able to happen (`MpiReady`, nothing buffered); a session is cut into pieces in which messages and collective calls fit together and sends come after receives; the rank furthest behind always gets on; `C73_allowed` ties the calls to those of C41, C54 and C55; the restriction on open messages of the user is a proved negation |
| C74 | small steps: a rank computes, sends, or receives one of the messages it waits for; for fixed orders of arrival the network is deterministic up to the order of independent steps (`Net.Runs.confluent`), so one complete history (the lockstep one, built stage by stage from `transform`) decides all of them; a history with free choices is one with the orders it has chosen (`runs_ordered`), completed to permutations (`kept_order`); the results of C40, C52, C53 and C38 then carry over |
| C75 | invariant: every block of the heap has exactly one owner (a vector, a raw pointer of the program, a temporary of an assignment), and starts with the expected entries (`Owned`, `DevSim`); each operation keeps it (`dev_step`); induction over the program. The two negations are concrete programs |
| C76 | pairs of a computed and an exact value satisfy an invariant with a size and a number of roundings (`Near`) that every operation keeps; the invariant is followed through all algorithms for any such invariant (`Graded`, `tree_graded`); the exact half is C34. The same induction with pairs of two runs gives the independence of the memory. The growth is computed in an arithmetic that always rounds up |
| C77 | the calls with abstract numbers (`number_call`) give the transforms line by line with the operations of the code; the invariant of C76 is followed through the three directions, the conversions between real and complex data, the fill of the complex-to-real input and the scaling |
| C78 | `number_call` gives the values as a function of the input, the world and the order of the directions; `planOperations_dirs`: the order depends on the boxes, `use_pencils` and the subranks only. The counterexamples compute one entry of a transform of 2 x 2 x 2 indexes in `double` for two orders |
| C79 | `makeFft3dM_eq`, `makeFft3dR2CM_eq`, `machine_call`: under bounds on the boxes of the plan (`PlanRoom`) each operation in machine integers returns the value of the unbounded model, followed through the members of the executors, the loops over lines, the offsets of a batch, the reshapes (C71), the cuts of the workspace and the scaling; the results come from C40 and C53. The counterexamples evaluate calls on one rank symbolically for all arrays |
| C80 | the checks of the methods are unfolded once (`forward_decides`, `backward_decides`): what is accepted is exactly what the specification `RightTypes` and the sizes of the boxes say; an accepted call on all ranks is the call of the C function on the memory of the arrays (`call_agreed`), so the values come from C55. The findings evaluate one-rank plans symbolically for all arrays |
| C81 | `Tracks`: each function in machine integers returns what the unbounded one returns and its boxes stay in the world (with room for the differences of the coordinates, also of empty intersections); followed through `split_world`, `maximize_overlap`, `make_procgrid2d` and both planners (`planOperationsM_eq`). The surface of the best grids is bounded by the indexes per rank. The counterexamples are evaluated; the one on the number of ranks is for all plans |
| C82 | `convolve` and `convolutionBenchmark` run the calls of C40, C53 and C62 with the loop over the spectrum between them; `through_spectrum` shows that the arrays after the loop are arrays for the call back. The values are those of `conv3` by `dft3_product` (orthogonality of the waves). For the sums of squares the boxes of the ranks tile the world, so the sum over ranks and entries is the one over the world |
| C83 | programs of assignments, releases and calls run on a memory of addresses with an arbitrary allocator; `Agrees` relates memory and variables to the expected state (one owner per plan, the memory holds exactly the owned plans) and is kept by every permitted statement (`step_agrees`); `Told` gives the lifetimes. The constructors are reduced to those of C49 and C40, the methods to C40, C52 and C53 |
| C84 | `call_more`: if a call returns for some arrays, the call on these arrays with any entries added at the ends returns the same arrays with the same entries added; shown operation by operation (`Follows`). The arrays of a call are cut to the documented size, C40, C45, C52, C53, C62, C64 hold for the cut arrays, `call_more` gives the rest. For the libraries `TrigLocal` is assumed of the part of the kernel that they do not use |
| C85 | the boxes of two processor grids tile the two worlds, so `findWorld` returns them (`findWorld_tiled`) and `Geometry` holds; the runs by induction from one forward and one backward call (C84 with C38, C48); the warm-up with one entry of the batch does not touch the other ones by `Untouched` if no output box is larger than the input box of the same rank |
| C86 | the executors for any numbers (`runR2R_any`, `Kernel.trigLine`) copy a line into the long signal, transform and take entries; the copies and signs are exact, so the bound of C76 for the long line is the bound of the line (`close_line`), with the sum of the sizes of the long signal at most twice the sum of the line; the three directions and the scaling as in C77, the relative errors of the factor are followed in both directions (`Ratio`) because of the quotients |
| C87 | every call is a relation between the entries of the input and of the output (`Performed`, `PerformedBack`; one constructor per kind of call, each with the hypotheses of C40, C52, C53 or C62 and `perform … = .ok ms`); the laws are equations between entries of several calls and do not mention the plan. Two calls are related only by the values of their inputs: objects, backends, ranks, boxes, storage orders, options, batches and the order of the messages are unrelated |
| C88 | the specification are brackets (`Nested`, `ScopeAt`, `EventsOf`), the model is a state machine (objects alive, log, file name, files written) with a clock that is read at each call. The three overloads of `compute_transform` are written a second time with the events (`tracedProgram`); the whole table of patterns shows that without the events it is `program`, that the events are nested, and that each operation is inside an event whose name fits (`decide` over the complete table of 3 x 256 control flows). The names of the messages are strings; they are described by the geometry of the boxes alone |
| C89 | the specification counts the values for other ranks in a list of MPI calls (`wireOut`, `wireIn`) and the points that a rank has in one list of boxes and not in another one (`pointsLost`, finite sets). The points that a rank loses are the disjoint union of its overlaps with the new boxes of the other ranks (tiling); the entries of the messages, and the rows of the count arrays, are these overlaps. The value is counted in entries of the array, not in bytes |
| C90 | the specification is an automaton for one resource (fresh, held, gone), and value semantics: which variable has the value of which constructor call (`Owners`). The model has the pointers of the variables, what lies behind them, and a log of acquisitions, uses and releases. Invariant: the phase of each resource of a plan is `held` exactly if the variable that has the value points to it, and `gone` or `fresh` if no variable has the value. For MPI the program is translated into a session of C73, where an assignment is eight pieces, one for each reshape that it frees |
| C91 | the programs of C34 in a monad that counts. The values are shown to be those of the uncounted programs, for any prices, so it is the same program; the counts are shown to be a function of the call graph. Bounds by strong induction on the length as the call graph is built, in terms of the sum and the number of the prime factors; a composite node needs the slack `- 3 N` of the induction hypothesis. The negation takes primes above 100000, of which there are infinitely many |
| C92 | a thread is a small machine: test of the pointer, assignment, begin of `execute`, the two halves of a line. Invariant for lengths without work memory: the shared state never changes, each thread keeps the value `result so far ++ transforms of the lines to come`, and its remaining steps decrease. For calls one after the other the same with the work memory in between. The two negations are runs for all lengths and all data |
| C93 | the calls of C45 and C70 as a relation between arrays (`PerformedTrig`), then equations between weights (`cos(mπ - x)`, `sin((m+1)π - x)`, `sin((m+1/2)π - x)`) multiplied over the three directions and summed over the world |
| C94 | the loop of `compute_grids` collects the set of intervals; `split_world`, `reorder`, `apply_r2c`, permutations of boxes and the change to the real world keep grids; every branch of the two planners is composed of these |
| C95 | the program of C82 with the calls of C77; the invariant of C76 is followed through the two forward calls, the product on each rank (three roundings more) and the call back, and the exact part of it is the convolution by C82 |
| C96 | the spectrum of real data has the same sizes at `p` and at its mirror image, which pairs the indexes missing in the half spectrum with those of weight two (`half_sum`); the rest is the sum of squares of C82 |
| C97 | for any two calls covered by `Performed` (C87) on the same boxes: equal positions are equal indexes (`totalInner_entries`), then `inner_dft3`; half spectra with `half_sum` of C96, real part only |
| C55 | unfolds the wrapper, then C40, C52, C53 |

## Reshape model: what is exact and what is simplified

* Every loop of the CPU packers is a list of element moves `dst[a] = src[b]` in
  program order. A reshape runs on all ranks in phases: pack, exchange, unpack.
  A rank reads its whole send part before any rank writes its receive part
  (snapshot exchange). `C30_in_bounds` shows that the two parts do not overlap,
  so the snapshot loses nothing.
* MPI: a collective of a group succeeds only if all the members give the same
  group and matching counts; otherwise the outcome is `ub`. Point-to-point
  messages are matched by peer and must have equal lengths. The order in which
  `MPI_Waitany` reports completions is an arbitrary permutation.
* The pipelined (`p2p_plined`) and blocking point-to-point variants differ only in
  the send call and are one model definition.
* GPU staging copies are not modelled. `reshape3d_transpose` is.
* The documented requirement that each list of boxes uses one storage order is a
  hypothesis (`Redistribution.orderIn/orderOut`).

## Stock FFT model: what is exact and what is simplified

* `StockTree` follows the planning code line by line, with `size_t` unbounded. The
  `while` loops carry explicit fuel that is shown to suffice. `N = 0` is rejected
  (`power_of(0, 4)` does not end; no caller passes 0).
* The call graph is stored as the code does, in an array of nodes with relative
  links; `stockFFT` rebuilds the tree by following the links (`C36_traversal`).
* `StockFFT` is the executable recursion over any type with the operations and a
  table of twiddle factors (`Tw`). Arrays are functions from offsets to values;
  input, output and the work memories of the nodes are different arrays, as in the
  code (the executor copies a line to a temporary first). It runs on complex
  numbers (`complexTw`, C34) and on packs (`packTw`, C67).
* `Simd` has the registers as functions from lane numbers to real numbers, and each
  intrinsic as its documentation describes it. Two lanes are combined with a bitwise
  `or` only where one of them is zero; any other case is `none`. `_mm_xor` with the
  sign bit is the negation. Alignment of the work memory is not modelled. The
  fused operations `fmadd`, `__mul_i`, `__mul_neg_i` appear in `StockFFT` as product
  and sum (`pack_operations` shows that they are the same in exact arithmetic).
* The twiddle factors of the complex instance are `cos`/`sin` of the angles in
  `omega::get`; `complexTw_ok` proves the laws that the algorithms use.
* The accumulated products of twiddle factors (`w *= w1`) are kept as products.

## Executor model: what is exact and what is simplified

* `Exec` has the numbers computed by the constructors (size, howmany, stride, dist,
  blocks, block stride) and the loops of `execute` with groups of `w` lines (`w` is
  half the SIMD width, 1 without AVX): read all lines of the group, transform,
  write. A read or write outside the array is the outcome `ub`. The padded lanes
  of the last group do not exist in `Exec`; they do in `Simd` (C67).
* The transform of one line is a parameter `T`. Its first argument is the line, so
  that it may depend on the contents of the work memory at that time.
  `ExecLines` has the lines of the stock plans (complex, real-to-complex with the
  conjugate fill of complex-to-real).
* FFTW is not part of the repository. Its plans are modelled by the documented
  meaning of the advanced interface (`fftwRank2`, `fftwRank3`): lines over the
  last dimension, then over the others. One dimensional FFTW executors have the
  same layout numbers as the stock executors.
* Layout numbers are `int` in the code and unbounded in the model.

## Transform model: what is exact and what is simplified

* A call is a list of instructions per rank (copy, reshape stage, executor, real
  part, ...), produced by the same case distinctions as the three overloads of
  `compute_transform`. The reshapes are collective: all ranks enter stage `i`
  together, or the outcome is `ub`.
* The buffers of a rank are the user's input and output and the workspace, split
  at the offsets of the code (`executor_buffer_offset`, temporary after the
  communication part). Reading or writing outside of an array is `ub`; so is a
  call of a null executor.
* Real data in the complex workspace (`reinterpret_cast`) is modelled by pairs
  (`Kernel.join`/`parts`).
* The executors come from C31-C33. The kernel (`Kernel`) holds the arithmetic of
  a line; `stockKernel` is the stock FFT of C34 in exact complex arithmetic, with
  arbitrary contents of its work memory.
* Executor workspaces (`workspace_size`) are 0 for the stock and FFTW complex
  executors; `C44_regions` covers other sizes.
* The order of the incoming messages in each reshape is arbitrary (`World`).

## Sine and cosine transforms: what is exact and what is simplified

* `R2R` has the loops of the CPU processors as lists of assignments `t[i] = value`
  per line, with the zero fill, the extended box (length 4n, 4(n-1)), the halved box
  of its spectrum and the partition of the executor's workspace. The real FFT of
  the extended lines is the stock executor of C32 and C34.
* The workspace of the executors is a separate list per call of an executor (`ws`)
  with arbitrary contents; `C44_regions` shows that the region of the code is
  disjoint from the other buffers. `EnoughWork` says that it has the size asked by
  `workspace_size()`.
* Constructing the object asks all the executors for `workspace_size()`; an
  executor without an inner executor is a null dereference (`ub`).
* The `cos(pi i / 2N)` factors are exact real numbers.
* `set_options` of the stock backend switches `use_reorder` on, as in the code.
* The scale factor is the one of `fft3d` (`1/64`, `1/8` for FFTW).

## C interface: what is exact and what is simplified

* A call ends with a return code, an exception that leaves the C function, or
  undefined behaviour; the caller's variable is untouched, dangling, or a plan whose
  `fft` pointer may be unset. A debug build runs the asserted checks first.
* All ranks call together with the same options. CPU backends only. The integer
  sizes of the interface are 32-bit (`toInt32`).
* `use_gpu_aware` has no effect on the model.

## GPU kernels: what is exact and what is simplified

* A launch is the list of the statements of all threads, block by block, with the
  grid-stride loops of the code; what happens is an arbitrary permutation of this
  list (`OrderOf`). This allows more orders than the hardware, so the theorems
  hold for it. Races are covered: two writes to one address must write the same.
* The signed index computations are listed (`directValues`, `transposeValues`,
  `convertValues`); a value that is not below `limit` is `ub`. `limit` is 2^31 for
  `index = int`. The launch configuration `thread_grid_1d` converts to `int` and
  divides as in the code; a launch with a non-positive number of blocks does
  nothing, and only CUDA's `scale_data` looks at the error.
* Arrays of complex numbers are arrays of reals, as in the kernels.
* C56 is about a single packer with the plan made by the reshape; the exchange
  between devices is the one of C22 and not restated.
* C58: the library of real-to-complex transforms is a parameter with the
  specification `LibGood` (`refLib_good` shows that it can be met). It may use the
  rest of the workspace in any way. Alignment (`align<cufft>`) is relative to the
  address of the workspace, which is arbitrary.
* The integer counts of MAGMA are modelled (`magmaCount`), not its kernels.

## Asynchronous reshapes: what is exact and what is simplified

* A host program is a list of launches, synchronisations, blocking MPI calls, posts and
  waits, written branch by branch from `apply_base` and `no_gpuaware_send_recv`. The order
  between operations (`Guarantee`) is what the manuals promise: a stream is in order, a
  synchronisation waits for everything launched before, a blocking call has used its buffers
  when it returns, a posted operation when it has been waited for, a message is received
  after it has been sent. Nothing else is assumed; these promises belong to the trusted base.
* An execution is any interleaving of single accesses of all ranks that respects these
  orders. The accesses of one kernel or copy have no order among themselves. The pending work
  of a stream is an arbitrary sequence of steps on the memory of its rank.
* `MPI_Send` is a blocking operation that reads its buffer; it may return before the message
  has been received. Deadlocks are the subject of C29 and C73, not of this model.
* A call in which no rank has a reshape object is no call (`fft3d` skips it); a rank without
  object only has its pending work.
* Reallocation of the host buffers, streams of other libraries and errors of the runtime are
  not modelled.

## Sessions of plans over MPI: what is exact and what is simplified

* The steps of a rank are the MPI calls in the order of the code: `MPI_Irecv`, `MPI_Send`
  (two steps, begin and return) or `MPI_Isend`, `MPI_Waitany`, `MPI_Waitall`, and the collective
  calls (enter and return). Partners and numbers of entries are those of the objects in `Api`.
* Two relations: `MpiMove` is the most generous MPI (a send returns at any time, a collective
  call too), `MpiReady` the least generous one (a send returns when its receive is posted, a
  collective call when all members have entered). `Completes`: from every situation that the
  generous MPI can reach, the least generous one gets on, and there is a bound for the number of
  steps. So the claim holds for every MPI between the two.
* All the ranks do the same sequence of actions (the documented use); a transform may be in
  place on some ranks only. Not modelled: calls from several threads, other tags, duplicated
  communicators, `MPI_Comm_create` returning an error, and types of the entries.
* `Matched` labels the calls of MPI with the action they belong to. The communicator made by a
  constructor is named after plan and reshape and cannot be confused with others.

## Ranks at their own speed: what is exact and what is simplified

* `transform` (C38-C55) runs all ranks through each reshape together. `OwnSpeed` is the same code
  per rank: the instructions of `program`, each reshape cut into `startExchange` (pack, send) and
  `endExchange` (messages in the workspace, own part, unpack). A rank may be several calls ahead of
  another one. C74 removes lockstep from the trusted base of the call theorems.
* Channels: messages between two ranks on one communicator stay in order (MPI's guarantee). All
  point-to-point reshapes of all plans share one communicator (that of the user); the collective
  ones have a communicator per plan, direction and reshape. A collective call is a message to each
  member and a message from each member; it does not synchronise (MPI does not promise that).
* The contents of a message are fixed when it is sent: the send buffer is not written until the
  messages have been received (C72 proves that for devices; `Good` has the regions apart).
* A message is written into the workspace when it is waited for, and all are unpacked after the
  last one; the code unpacks each one on arrival. Regions of different messages are apart
  (`RecvsApart`), so the contents are the same.
* Between two calls the user may do any local computation with the arrays (`args`, `result`);
  messages of the user during a transform are excluded (C73_false_open_messages).
* Progress is stated without buffering questions: sends never block here; C73 has the model in
  which they do.

## Vectors in device memory: what is exact and what is simplified

* All constructors, both assignments, the destructor, `release`, the capture of a raw pointer and
  reads and writes through `data()` are operations of a program (`DevOp`); the temporaries of the
  assignments and their destructors are part of the operation.
* The memory is a heap of blocks with new addresses chosen by the system (`DevAnswer`); a second
  free, a free of an unknown pointer, a copy outside of a block are undefined behaviour. A free of
  a null pointer is allowed. For zero entries the system may answer with a null pointer or a block.
* The range constructor is modelled with a range inside of a vector; a range of a raw pointer is
  the same copy.
* A queue stands for its context. With oneAPI memory has to be freed and copied with a queue of its
  own context; with CUDA and ROCm `free` takes no stream.
* Copies are complete when the next operation starts. CUDA and ROCm copy asynchronously on the
  stream of the new vector: programs that write the source from another stream at the same time are
  outside of the model. Copies do not fail.
* Not modelled: `transfer`/`load`/`unload` between host and device (their copies are the same calls
  with one side in host memory).

## Rounding: what is exact and what is simplified

* The type is `Complex<F,1>`, which the stock backend uses without AVX. The packs of AVX use fused
  operations in other places; they are not covered. Any of the two products in the parts of a complex
  product may be contracted with the sum (`Arith.fused`), the same one in all products.
* The rounding is any function with the relative error `u` (the standard model of the error analysis);
  `binary` is the rounding to nearest with `p` binary digits and all exponents. So overflow, underflow,
  infinities and NaN are outside of the model. `cos` and `sin` have an error of at most `2 u`.
* The order of the operations, the powers of the twiddle factors by repeated products and the
  conversions in `omega::get` (product and quotient in `double`, for `float` and `double`) are those of
  the code. The product with `i` is a complex product; `mulI_exact` proves that it does not round.
* The bound is for each entry and in terms of the sum of the sizes of the input. The constant 60 is
  not optimal. The lengths are those of C34 with prime factors up to 100000, and primes above with
  one application of Rader's algorithm.

## Calls in floating point: what is exact and what is simplified

* `number_call` and `number_call_r2c` are proved for any numbers: no law of arithmetic is used but that a
  complex number is the pair of its parts. They use the same definition of a call (`Object.call`) as C40 to
  C44, with the executors without AVX (`lanes = 1`).
* `floatCall` has the arithmetic of C76. The factor of the scaling is computed in `double` (conversion of the
  count, quotient, square root), the products with it are in `double` and are converted to `F`
  (heffte_pack3d.h:209-211 with the factor as `double`).
* Bounds: each of the three directions adds `60 q (N_d - 1)` units, the scaling adds 6. A backward
  complex-to-real call of `fft3d_r2c` counts the stored half twice.
* C78 is about the executors without AVX: with AVX the last lines of a box may be in other packs with other
  positions, but each lane does the same operations; this is not part of the theorem.

## Machine integers of the transforms: what is exact and what is simplified

* `makeFft3dM` and `makeFft3dR2CM` have the types of the code for the members of the executors (`int`, also when
  the coordinates are `long long`), the products in `fft1d_get_howmany` and `fft1d_get_stride`, `box_size()`,
  `complex_size()`, `last_chunk`, `get_max_box_size` (`size_t`) and the workspace sizes of the reshapes. The calls have
  them for `batch_size * box_size()`, `j * box_size()`, the positions of the lines in the stock plans
  (`p * dist + i * stride`, `int`), the loops over blocks, the reshapes and the scaling (`long long`).
* A signed overflow is `ub`. A conversion to `int` keeps the low 32 bits, which is what the compilers do
  (implementation-defined before C++20).
* The plan is made by `planOperationsM` (C81). Not in machine integers:
  the positions in the workspace that are products with a `size_t`, the arithmetic
  inside of one-dimensional transforms and inside of FFTW, and the sine and cosine executors of the stock backend.
* `PlanSizes` has the boxes of all the stages of the plan, not only the ones of the user. `SmallGrid` has the
  number of indexes of the whole grid only, it implies `PlanSizes` for each plan.

## Python wrapper: what is exact and what is simplified

* An array is its type, its number of elements, its stride and the memory behind its pointer; that is all that the
  wrapper looks at or passes on. The four methods are modelled check by check in the order of the code. The buffered
  methods are the same definitions with a workspace.
* A call on all ranks ends in one of four ways: the memory afterwards, an exception on all ranks, some ranks raise an
  exception and the others wait, or undefined behaviour.
* `pyOptions`: the structure of the wrapper has three integers and the library reads four, the fourth one is an arbitrary
  integer `gpu`. The theorems hold for each value of it. The read itself is outside of the object, the model lets it pass.
* `__del__` after a failed creation is `crashed`: the destructor of the plan gets a null pointer or an object that has
  been deleted. In Python it runs when the exception is handled, in the model at once.
* Not modelled: `proc_setup`, arrays in device memory (`device_ctypes_pointer`), the conversion of the communicator, `ctypes`
  itself, the plan attributes being changed by the user, rounding of the division in `split_world` (rational numbers here).

## Machine integers of the planner: what is exact and what is simplified

* Sizes of boxes have the type of the coordinates and are computed by each constructor of a box (also of the empty
  intersections in `maximize_overlap` and of the boxes that `r2c` shortens), `count()` is `long long`, grids and areas are `int`.
  `maximize_overlap` keeps the count of an intersection in an `int`; the conversion keeps the low 32 bits as in `Plan`.
* The setup in machine integers of C79 starts with this planner, so C79 covers the whole constructor.
* `MachineGrid` are the bounds: the world starts at the origin, its upper bounds plus one fit in the type, its count fits in `long long`, no box
  of the user has an upper bound so far below its lower bound that the difference does not fit, and there are fewer than `2 ^ 30` ranks.
* Not modelled: counters over ranks (`int i < num_ranks`), `std::vector` running out of memory.

## Programs on the spectrum: what is exact and what is simplified

* `convolutionBenchmark` is the part of `benchmarks/convolution.cpp` between the barriers: in place, `scale::full` forward, the loop over the
  whole array (which may be longer than the box), no scaling back. `convolve` is the program of its first comment, with a second array; the user's choices
  (scalings, in place or not, batch, lengths of the loops) are arguments.
* Exact numbers as in C40; the bounds of C76 and C77 are not carried through the products.
* Not modelled: the choice of the grids, the random data and the printing of the benchmark.

## Fortran: what is exact and what is simplified

* `/repo/fortran/generated` (all backends alike): the flags `SWIG_MEM_OWN` and `SWIG_MEM_RVALUE`, `capture`, `alias`, `destroy`, `move_alias`, `copy_alias`,
  `SWIG_assign`, `release` and the null check of the methods are transcribed statement by statement. Addresses are compared as in the code; a pointer also carries
  the number of its object, so that the use of a deleted object is undefined even if its address is in use again.
* A statement is one of `v = heffte_fft3d(...)`, `v = w`, `call v%release()`, a method call. Intrinsic copies of derived types that contain a plan variable
  (which use the defined assignment or not, depending on the compiler) are not modelled.
* The constructors take the 12 or 18 integers of every rank; an order that is not one of 0, 1, 2 counts as undefined behaviour. A number of an
  algorithm outside 0 to 3 is treated as in the code (like `p2p`). No wrapper catches exceptions, so an exception of a constructor ends the program.
* The methods are the ones of the C++ classes; the arrays have assumed size and are not checked, as in C++.

## The benchmark speed3d: what is exact and what is simplified

`Speed` follows `benchmark_fft` (speed3d.h:38-230) for the stock backend. The command line is given by its values: sizes, the options `-ingrid`, `-outgrid`, `-io_pencils`, `-batch`, `-r2c_dir`, the number of runs, and the plan options. Left out: the parser (`std::stoi`, the search for options in the list of arguments), the random data (any data are allowed), the time measurement, the second plan that is only printed, the GPU transfers and the barriers. The calls are the ones of C40, C45 and C53, the environment (order of messages, contents of scratch arrays) may be another one in every call. The workspace of the warm-up calls is a new vector in each call, as in `fft3d::forward` without workspace. The negative batch is left out (the conversion to `size_t` asks for a huge vector).

## The sine and cosine transforms in floating point: what is exact and what is simplified

As in C77 without AVX. The negation is exact, signed zeros are not distinguished. The factor is computed as in fft3d.h:577 and 635-648: a quotient and a division by 64 for `stock_cos` and `stock_sin`, three conversions, three products and a quotient for `stock_cos1`; in each operation any rounding with relative error `u` is allowed. The bound refers to the largest value that a transform of data of the same sizes can have: `2^3` (forward) or `4^3` (backward) times the sum of the sizes, times the scaling.

## Tracing: what is exact and what is simplified

Exact: the log (order, names, start, duration), the name of the file, clearing by `init_tracing`, all the events of a call. Simplified: times are
rational numbers (no rounding of `MPI_Wtime() - start_time`); the format of a line (`setw`, `precision(12)`) is not modelled, the file is the list of
events; a file that cannot be opened is modelled only for the empty name; the marks of the benchmark (speed3d.h:163-182) and of the user are
events without contents and are covered by `C88_file` (any sequence of events), not by `MpiPlan.traceOps`. An exception in a call (which unwinds the
objects) is not modelled. Threads: `event_log` has no lock; one thread per rank is assumed.

## Plans in variables: what is exact and what is simplified

Exact: the members and the order of their construction and destruction, null pointers after a movement, self-assignment, the order in which
an assignment frees the old members, the plans of the FFT libraries that are made at the first call, the communicators of the two collective
reshapes, the queue of MAGMA.  Simplified: the members of `std::vector`s and the scratch memory of plans are part of the memory of
their object; the order of uses inside of one call is that of the members (each resource is used by one member only); `magma_init` and
`magma_finalize` are not counted apart from the queue; a constructor that throws is not modelled.  `CallsAllowed` says that a call is one that
the plan accepts (its instructions exist), as in C73.

## The work of a stock transform: what is exact and what is simplified

Exact: every operator of complex numbers in the source text of the algorithms, in both directions, and every call of `omega::get`.  `fmadd` and
`fmsub` count as two operations, `__mul_i` and the negation as one each.  Simplified: the arithmetic of indexes (including the modular products of
Rader's algorithm and the search for a primitive root when the plan is made) and the copying of data are free, a compiler that merges equal
subexpressions makes less, the vector lanes are one operation, and the multiplications of the bootstrapped real-to-complex and of the scaling are
not part of a transform of one line.

## Threads: what is exact and what is simplified

Exact: what is shared by two calls of an executor of the stock backend (the pointer to the plan, the nodes with their work memory), the test before the assignment, the
deletion of the old plan by the assignment, that `execute` is called once for each block and keeps its plan.  Simplified: the steps alternate (sequential consistency; a
C++ data race is undefined by itself, so the negations hold a fortiori, and in the positive statement nothing shared is written, so there is none); a step is
coarse, but in the positive statement a line touches nothing shared, so a finer cut gives the same; the transform of a line by Rader's algorithm is one step.  Calls of
the reshapes from several threads are not modelled (they share `mutable` vectors of requests, heffte_reshape3d.h:390-391), so the property speaks about
one rank, where the reshapes are transpositions in the arrays of the caller or absent.

## Laws of sine and cosine transforms: what is exact and what is simplified

Exact: everything of C45 and C70, on which C93 builds: the plans, reshapes, batches, executors, pre and post processing, scaling; the GPU kernels and the orders of their
statements.  Simplified: real arithmetic.  MKL has no executor for the cosine transform of the first kind (heffte_backend_mkl.h:466-484), so the
statement about MKL says more than the code offers.  The sine and cosine transforms of FFTW (C64) are another family with their own scaling and are not part of C93.

## Reported process grids: what is exact and what is simplified

Exact: the loops of `compute_grids` (plan_logic.cpp:461-484), the choice of shapes, the skipped interval from 0 to -1, the comparison that decides about the dash
(benchmarks/speed3d.h:115-118).  Simplified: the conversion of the counts to `int` (exact below `2^31` ranks); the text around the numbers is not modelled.

## Convolutions in floating point: what is exact and what is simplified

Exact: the calls are those of C77.  Simplified: the product in the loop is the four products and two sums of complex numbers, each rounded; the special treatment
of infinities and NaN by `operator *` of `std::complex` is not modelled (there are none without overflow, and overflow is not modelled).
`floatConvolve` has two different arrays; `floatBenchmark` squares one spectrum as `benchmarks/convolution.cpp` does, and its result is near the convolution divided
by the number of indexes, so the scaling found in C82 is not hidden by rounding (`C95_false_benchmark`).

## Vendor libraries: what is exact and what is simplified

* `Vendor` has the fields of the executors, the choice in `make_plan` and the
  arguments of the plans. What a library does with them is trusted, from its
  documentation: transforms along the dimensions one after the other (`Layout.run`),
  with one stride for each dimension (MKL, oneMKL, rocFFT) or `inembed` (cuFFT).
* The lines of the real-to-complex calls are transformed by a parameter. cuFFT and
  MKL may overwrite the complex input of the backward transform; this input is not
  read again and its change is not modelled. For rocFFT the temporary array and
  the input of each call may be overwritten (`LibWrites`), since the executor copies
  the data for that reason.
* cuFFT: a call with an array that is not aligned to the complex type is `ub`; the
  requirement is the one written down in `heffte_common.h:597`. Addresses of the
  three arrays are parameters (`Places`, in reals).
* rocFFT: the work sizes reported by the library are parameters in bytes
  (`RocWork`); they are assumed to be multiples of the size of an entry.
* The fields are `int`; overflow is not modelled.

## Findings (code does not satisfy the property)

* C03 `C03_empty_box_bounds_matter`: an empty box with bounds outside the world
  still takes part in the bounds of `find_world`.
* C09 `C09_false`: `proc_setup_min_surface` does not always return the grid with
  the smallest surface (and `C09_*_partial` says what holds).
* C10 `C10_false`: `maximize_overlap` stores a 64-bit count in an `int`; with an
  overlap of 2^31 indexes the count wraps and the best box is not taken.
* C17/C18 `C17_unguarded_false`, `C18_unguarded_false`: when rank 0 has an empty
  box the order of the intermediate shapes is taken from a box without meaning.
* C34/C35 `C34_false`, `C35_false`: the factor search stops at `k*k < f` and so
  misses the square of a prime above 1213. For N = 1217*1217 = 1481089 the planner
  sets up Rader's algorithm on a composite length and the result is not the DFT.
  `C35_fails_iff` shows that there are no other misses.
* C33 `C33_false_2d`, `C33_false_3d`, `C33_out_of_bounds`: the executors of FFTW
  for two and three directions take the sizes by direction and not by storage
  order. They are used when `use_reorder` is off and one or two of the inner
  reshapes are not needed. With boxes of a user given order other than (0,1,2)
  the result is wrong, or memory outside the array is used.
* C42 `C42_false_empty`, `C42_false_c2r`: a rank without data has null executors; a
  call out of place on such a rank, with no reshape before the first executor,
  dereferences the null pointer (compute_transform.cpp, out-of-place branch; the
  documentation says that boxes "currently should not be empty"). In place it works.
* C42 `C42_false_merged`: FFTW, storage orders of input and output different, the
  three directions merged into the first executor: `backward` out of place applies
  the executor to the output array before any data is moved there, so the result
  does not depend on the input.
* C40 `C40_fftw_false`: consequence of C33 for a whole transform.
* C43 `C43_r2c_false`, `C43_r2c_wrong`: forward `fft3d_r2c` with a batch above 1
  and without the last reshape: the entries of the batch are at the stride of the
  real box in the complex output; out of bounds or wrong values.
* C47/C48 `C48_cos1_single_false`: with one index in some direction the constructor
  of the cosine-I transform dereferences a null executor (the extended signal has
  length zero), for every valid geometry and all options. FFTW documents the
  transform for n >= 2 only; nothing checks it here.
* C49: `heffte_plan_create` breaks its contract in four ways. `C49_escape_false`: an
  unknown algorithm throws out of the C function and leaves a plan that cannot be
  destroyed. `C49_dangling_false` and `C49_two_false`: when the planner gives up
  (for example two ranks with one index each) the code is 2, but the caller's
  variable is the address of a deleted struct (`plan = nullptr` sets the local
  pointer). `C49_invalid_boxes_false`: in a debug build bad boxes throw
  `std::invalid_argument`, which is not caught. `C49_direction_false`: a direction
  outside 0..2 is used as an index. `C49_honours_iff` gives the exact condition
  for valid boxes.
* C49 `C49_default_gpu`: the default options do not set `use_gpu_aware`. With null
  options the wrapper reads that uninitialised field (formally undefined; it has
  no effect on the CPU backends).
* C50 `C50_ignored`, `C50_false`: `use_subcomm` stores the communicator and nothing
  reads it. It is the same as `use_num_subranks(1)`: all the work between the two
  ends goes to rank 0 of the whole communicator.
* C55 `C55_kind_false`: the C functions for complex data cast the object of an r2c
  plan to another class.
* C56 `C56_overflow`, `C56_false`: the packing kernels compute positions in reals
  with the index type of the transform. With `int` and complex data a local box of
  more than 2^30 entries (for example 1025 x 1024 x 1024) overflows, though its
  own count fits an `int`.
* C57 `C57_false`: `thread_grid_1d` takes an `int`, `scale_data` passes the number of
  reals. From 2^30 complex entries on, all arrays of a batch together, the launch
  has a negative number of blocks: CUDA throws `std::runtime_error`, ROCm returns
  the unscaled result without an error. `C57_convert_lost`: the conversion of
  2^31 entries does nothing. `C57_convert_overflow`: with `int` it overflows above
  2^30. `C57_magma_false`: with MAGMA the count is an `int`.
* C59 `C59_false_2d`, `C59_false_3d`: the executors for two and three directions of
  cuFFT, rocFFT, MKL and oneMKL have the defect of C33.
* C61 `C61_forward_false`, `C61_backward_false`: cuFFT, real transforms with a batch
  above 1. The array number j begins at j times the number of local reals. If this
  number is odd and the direction is the fastest or the slowest one, every second
  array is not aligned to the complex type, and is given to cuFFT directly; only
  the second fastest direction uses the aligned copy. The repository notes the
  requirement in `heffte_common.h` and in `cufft_executor_r2c::forward`.
* C65 `C65_false`: the table in the documentation of `rtransform` says that backward
  sine and cosine transforms are `FFTW_RODFT01` and `FFTW_REDFT01`. The FFTW backend
  computes these; all the others compute twice as much for every direction, eight
  times in three dimensions, and have `scale_factor` divided by 64 instead of 8. So
  unscaled backward transforms, and forward transforms with scaling, change with
  the backend by 8, 1/8 or the square root of these.
* `fft3d::backward_real` and `fft3d_r2c::backward` with vectors have no size check (fft3d.h:535-542,
  fft3d_r2c.h:284-291), unlike the other three methods; a short vector is read out of bounds (`C68_false`).
* C69 `C69_names_false`: `backend::name<rocfft_cos1>()` returns "rocfft-sin" (common.h:369), the name of another
  transform.
* C71: with both index types the reshape keeps sizes, offsets and totals in `int`. The
  padded buffer of `alltoall` overflows (`int offset`) as soon as batch * largest
  message * ranks reaches 2^31, although each box is smaller and the other algorithms
  work (`C71_false_alltoall`, 1022/1/1 planes of 1024 x 1024). `size_workspace` adds two
  `int` and overflows from 2^30 + 2^30 entries (`C71_false_workspace`,
  `C71_false_transpose`). With `long long` boxes of 2^31 entries the `int` totals of the
  messages overflow in the constructors (`C71_false_longLong`), so the wide index type
  does not allow larger local boxes. Pointer arithmetic and `box3d::count` are not
  checked for overflow in this model; the batch size is an `int` that fits.
* C72: without GPU-aware MPI the buffer on the host is given to MPI right after
  `gpu::transfer::unload`, without a synchronisation of the stream. oneAPI waits in `unload`;
  with CUDA and ROCm it is `cudaMemcpyAsync`/`hipMemcpyAsync`, so correctness relies on the
  runtime finishing copies to pageable memory before it returns (documented for CUDA). With
  pinned buffers the code would be wrong: `C72_false_without_wait`. With it, and with
  GPU-aware MPI, the synchronisations in the code suffice, also the missing ones: the plain
  point-to-point algorithm packs the next message over the last one and is right because the
  stream is in order; nothing waits for the unpacking at the end, so the user has to
  synchronise before reading the result from outside the stream.
* C73: the point-to-point algorithms send on the communicator of the user with tag 0, which is
  not duplicated. A receive of the user (from this rank, tag 0 or any tag) that is open during a
  transform takes the message of the transform, and the transform takes the message of the user
  (`C73_false_open_messages`). The documentation does not say that such messages have to be
  completed before a transform. The theorems need it (`Piece` for the steps of the user).
* `C75_false_queues`: with oneAPI `a = b` (copy or move) first takes over the queue of `b`, and the
  temporary with the old memory of `a` is then destroyed with the queue of `b`
  (heffte_backend_vector.h:113-126: `device = temp.device`, but the devices are not swapped). If the
  queues have different contexts, `sycl::free` gets a context that the memory does not belong to,
  which is undefined. A swap of `device` would be correct. CUDA and ROCm do not look at the stream.
* `C75_false_memory`: with oneAPI a failed allocation is not reported: `sycl::malloc_device` returns
  a null pointer, `allocate` does not check it (heffte_backend_oneapi.h:231-235), and the vector
  reports a size without memory. CUDA and ROCm check the status and throw.
* `C76_growth`: for a prime length up to 100000 the error of the stock backend grows with the square of
  the length (`2 N (N - 2) + 3` units of roundoff are reached), because `DFT_helper` computes the powers
  of the twiddle factor by products of products (heffte_stock_algos.h:105-124: `wk *= w0` and `wkn *= wk`).
  In `float` and for lengths near 10000 the bound exceeds the values themselves. A direct evaluation of
  each factor would give a linear growth. Powers of 2, 3 and 4 have a linear growth.
* `C78_false_pencils`, `C78_false_ranks`: the results are not the same bits for all options and numbers of
  ranks. The planner transforms the directions in an order that depends on `use_pencils` and on the boxes
  (plan_logic.cpp: `plan_pencil_reshapes`, `plan_slab_reshapes`), and rounding is not associative. With the
  default options an input of 2 x 2 x 2 numbers gives 1 on one rank and 0 on two ranks for the first entry (both
  within the bound of C77). The algorithm, `use_reorder`, batches, old memory contents and in-place calls do
  not change any bit (`C78_bits`, `C78_options`).
* `C79_false_batch`: `compute_transform` computes `batch_size * executor[0]->box_size()` and `j * box_size()` as
  products of two `int` (compute_transform.cpp:61, 40, 45), also with `long long` coordinates. On one rank with 1024^3
  complex numbers one transform works, a batch of two out of place and a batch of three in place overflow.
* `C79_false_large_box`: `box_size()` of the executors is an `int` (fftw.h:319, stock.h:525) while `size_inbox()` is a
  `long long`. With 2048 x 2048 x 1024 indexes on one rank and FFTW the value is zero, the input is not copied and the call
  returns the transform of the old output; no error is reported. (In place there is no copy.)
* `C80_false_backward`, `C80_false_backward_r2c`: `backward` and `backward_buffered` compare the input with `size_inbox` and
  the output with `size_outbox` (heffte.py:319, 362), but the input of a backward transform belongs to the
  outbox. When the two boxes of a rank have different sizes the right arrays are rejected; every plan of `fft3d_r2c` with
  at least three indexes in the halved direction has such a rank, so no backward r2c transform works on all ranks.
  `C80_false_memory`: the arrays that are accepted instead make the library write behind the end of the output.
* `C80_false_kind`: `fft3d_r2c` sets `use_r2c = False` (heffte.py:177), so the checks for complex arrays are
  dead; a complex array on such a plan is undefined behaviour (C55_kind_false).
* `C80_false_workspace`: `backward_buffered` does not check the size of the workspace (`forward_buffered` does).
* `C80_false_strided`: no method looks at the strides of an array. A view of every second element, all of them zero, gives a
  result that is not zero; with other views the library reads or writes outside of the array.
* `C80_false_failure`: whenever the library returns an error code, the wrapper raises an exception and the destructor of
  the half-made object passes a null or dangling pointer to `heffte_plan_destroy`, which dereferences it.
* `C80_false_split_world`, `C80_false_split_grid`: `split_world` uses the attribute `size`, which `box3d` does not have; with such an
  attribute the true division gives boxes that overlap or leave the world if the grid does not divide it.
* By reading: `plan_options` has three fields, the C structure four (`use_gpu_aware` is read behind the end); the value 1
  for `use_alltoall` means pipelined point-to-point since the field became `algorithm`; `print_what` prints an undefined name.
* `C81_false_ranks`: with `2 ^ 30` ranks or more `get_area` overflows, so no plan can be made (of theoretical interest only).
* `C81_false_world`: with `int` coordinates two boxes of valid geometry can be constructed although the world has `2 ^ 31` indexes in one
  direction; `find_world` then overflows, also in a release build, instead of an error.
* `C81_false_surface`: `proc_setup_min_surface` adds products of two sizes in the type of the coordinates; `2 ^ 30` indexes per rank
  overflow. The best surface starts with the maximum and is compared with `<`, so when the only grid has this surface the
  result is `{1, 1, 1}`, a grid for one rank, and `split_world` then returns one box for two ranks.
* `C82_false_benchmark`: `benchmarks/convolution.cpp` announces `FFT^-1( FFT(X) .* FFT(Y) )` with `Y = X`, but scales the forward transform
  with `scale::full` and squares the scaled spectrum. The result is the convolution divided by the number of indexes (`C82_benchmark`), for
  every grid with more than one index. The benchmark does not check its result. With the scaling on the transform back the program is right (`C82_complex`).
* `C83_false_copy`: in the Fortran interface `v = w` keeps the flag of ownership if `v` already holds another plan (`copy_alias` in the generated file calls
  `capture`, which clears the other flag). Both variables own the plan and releasing both deletes it twice. If `v` holds no plan the flag is cleared.
* `C83_false_null`: `v = w` with a `w` that holds no plan deletes the plan of `v` without looking at the flag of ownership.
* `C83_false_leak`: a new plan that gets the address of a plan that was released under another name is taken for a self-assignment; the flag of ownership is lost and
  the plan is never deleted.
* speed3d (C85_false_warmup): with `-batch` larger than one and in-place transforms the warm-up transforms one entry only (speed3d.h:170-171); if the output box of a rank is larger than its input box, `forward` writes over the start of the next entry of the batch (the entries lie behind each other with the distance `size_inbox()`). The benchmark then reports a large error although the library is right. Example: `4 2 1 -ingrid 3 1 1 -outgrid 1 3 1 -batch 2` on three ranks. The error needs different grids with uneven boxes, for example `-io_pencils` with a size that is not divisible.
* speed3d (C85_false_batch): `-batch 0` is accepted; the warm-up then reads and writes outside of an empty vector.
* speed3d (C85_false_grid): `-ingrid -1 -2 2` on four ranks passes the comparison of the product with the number of ranks; `split_world` returns no boxes and `inboxes[me]` is read outside of the vector.
* speed3d (C85_false_default): the grid suggested by `proc_setup_min_surface` can have the wrong product (C09), the benchmark then stops with an exception that speaks of an incorrect grid though none was given.
* speed3d, not modelled: `-r2c_dir -1` is taken as 0; the first of `-n1`, `-n10`, `-n50` counts, and the documented `-n5` is not looked at, so that `-n5 -n10` are 10 runs.
* C87: a world that does not start at index 0 is accepted in builds with `NDEBUG` only: `world_complete` is called inside `assert` (plan_logic.cpp:438-439) and throws for it. The theorems hold for such worlds too; the examples start at 0, so that both builds accept them.
* C88, found: (1) the documentation promises files `root_rank.txt`, the code writes `root_rank.log` (`C88_false_name`). (2) Without GPU-aware MPI and with `p2p_plined`, the event of `MPI_Isend` has the size of one transform, not of the batch (reshape3d.cpp:568); all the other messages have the size of the batch, so the logs of sender and receiver disagree (`C88_false_staged`). (3) With GPU-aware MPI or on the CPU, `unpacking from i` has the number of the request instead of the rank of the sender (reshape3d.cpp:704, compare 614); the rank itself may appear, other ranks never (`C88_false_unpacking`). (4) The event `reshape/copy` of a call with at most the first reshape lasts until the end of the call and includes all the transforms (compute_transform.cpp:54-66, `C88_false_reshape_copy`). (5) The first two transforms of a complex-to-real call have the name `fft-1d x3` (compute_transform.cpp:223, `C88_false_x3`). (6) The benchmark of the convolution calls `finalize_tracing` without `init_tracing`; nothing is written (`C88_false_no_init`).
* C89, found: `MPI_Alltoall` pads all the blocks of a communicator to the largest overlap of any pair, also the blocks of pairs without common points, and the communicator is a connected component of the overlaps; a rank that loses 4 points hands over 48 values (`C89_false_alltoall`, two ranks, 4 x 5 x 4). This is by design, but there is no bound by the needed amount. The other algorithms send exactly what is needed.
* C90, found: `magma_handle<tag::gpu>` has a destructor but neither copy nor move operations, so the compiler-made move of a plan copies the raw pointer of the queue. With MAGMA enabled on a GPU, moving any plan (returning it from a function without elision, `std::vector<fft3d<...>>::push_back`, assignment) destroys the queue twice (`C90_false_magma`), scaling after the source has been destroyed uses a destroyed queue (`C90_false_magma_use`), and assigning over a plan never destroys the old queue (`C90_false_magma_leak`). Without MAGMA, or on the CPU, or if no plan is moved, the claim holds for all programs.
* C91, found: Rader's algorithm is there to make large prime lengths fast, but its convolution (algos.h:354-363) computes the spectrum of its constants by a double loop with a sine and a cosine in each step, on every call. So a transform whose length is a prime `p > 100000` makes at least `(p - 1)²` evaluations of sine and cosine where the direct sum it replaces makes one (`C91_false_rader`), and no `C N log N` bounds the work (`C91_false_nlogn`). Primes up to 100000 are summed directly, with exactly `(p - 1) (3 p - 1)` operations. For lengths with small prime factors the work is `O(N log N)`, as it should be.
* C92, found: the `const` methods of the stock backend cannot be called from two threads on one plan. The first calls race for the pointer: one thread can delete the plan that the other one is using (`C92_false_first_call`, for every length). Later calls share the work memory in the nodes of the call graph: for every length that is not a prime or a power of two or three, a thread can finish with the transform of the data of the other thread (`C92_false_work_memory`). For powers of two and three and primes up to 100000 calls after the first one are safe (`C92_shared_partial`), and one call at a time is always right (`C92_one_at_a_time`).
* `compute_grids` counts intervals and skips only the interval from 0 to -1.  Slabs in a direction with fewer planes than ranks have empty intervals such as
  [2, 1], which count as one more process: four ranks and two planes are reported as 1 x 1 x 3 while two ranks hold data (`C94_false_slabs`).
* The dash in the output of the benchmark is said to mean that no reshape was applied.  It is printed when two neighbouring grids have the same dimensions, so also when
  the data is transposed on every rank (`C94_false_dash`, two slabs with the default options) and when all the data moves to another rank (`C94_false_dash_moved`).
* Not modelled: `rader_FFT` computes `p*(k*m+ak)`, about p^3, in `size_t`; with 64
  bits it wraps for primes above about 2.6 million, where the twiddle factors are
  then wrong. The model uses unbounded integers, so C34 covers such primes only in
  the sense of exact index arithmetic.
* `assert(world_complete(...))` is the only validation of user boxes in the
  planner; in release builds it does not exist. The theorems take a complete
  world as a hypothesis.

## Seeded bugs: how to read `seeded/LOG.jsonl`

Each line is one edit of a definition (or of a specification) in a scratch copy.  `first_errors` are the declarations with an error, `failed` the property theorems whose
proof uses one of them; files that import a broken file are not built, so `failed` is computed from the dependencies of the proofs and not from a rebuild of each theorem.
An edit that breaks only the proof of a helper counts as killed, also when another proof of the theorem might exist.

* Lines with `survived` built without an error; the note or a later line says why, or which theorem was added.
* Lines with `void` are attempts that say nothing: eight were run while the unchanged project did not build, ten while the dependencies could not be computed, one edit hit a
  comment, one broke only a lemma that repeats the definition.  All of them are repeated in later lines.  `tools/mutate.py` now builds the unchanged copy first and stops if this
  fails.  Earlier runs did not check it; a search of the log for errors shared by neighbouring edits of different definitions found no other case.
