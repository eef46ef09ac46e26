import Verif.R2R
import Verif.Pack

/-!
# Model of the kernels of the GPU backends

`/repo/src/heffte_backend_cuda.cu` is cited as `cuda.cu`, `/repo/src/heffte_backend_oneapi.cpp` as `oneapi.cpp`.  The file
`heffte_backend_rocm.hip.cpp` has the same kernels and launches as `cuda.cu`; the one difference that matters here is the parameter
`checks` of `gpuScale`.

A kernel is a list of statements for each pair of a block and a thread; the statements of a launch are the statements of all threads.
The hardware runs them in any order: `OrderOf order all` says that `order` is an order of all of them, also orders that no hardware produces
(the statements of one thread are not kept in sequence), so what is proved holds for the orders that do occur.  The launches of one
stream follow each other.  Every kernel reads one array and writes another, apart from the scaling, which reads the entry that it writes.

Arrays of complex numbers are arrays of real numbers of twice the length (`reinterpret_cast` in the launches).

Overflow of the signed index computations is the outcome `ub`; `limit` is `2 ^ 31` for `index = int` and `2 ^ 63` for
`index = long long`.  All these values are non-negative.  Pointer arithmetic is done with 64 bits and does not overflow.
-/

namespace Verif

/-- `order` is an order of the statements `all`. -/
def OrderOf {σ : Type} (order all : List σ) : Prop := order.Perm all

/-- The pairs `(blockIdx.x, threadIdx.x)` of a launch `<<<blocks, threads>>>`. -/
def launch (blocks threads : Nat) : List (Nat × Nat) :=
  (List.range blocks).flatMap fun b => (List.range threads).map fun t => (b, t)

/-- What all the threads do. -/
def allThreads {σ : Type} (blocks threads : Nat) (kernel : Nat → Nat → List σ) : List σ :=
  (launch blocks threads).flatMap fun g => kernel g.1 g.2

/-- A launch of a kernel that copies: `values` are the integers that are computed, `order` the moves as they happen. -/
def runCopy {γ : Type} (limit : Int) (values : List Int) (order : List (Int × Int)) (src dst : List γ) : Res (List γ) :=
  if values.all (fun v => decide (v < limit)) then copyMoves order src dst else .error .ub

/-! ## Packing -/

/-- The moves `(destination, source)` of one thread of `direct_packer` (cuda.cu:60-86): `data` and `buf` are the positions of the
pointers in their arrays, counted in entries of `tuple` reals; `pack` selects the direction. -/
def directThread (tuple : Nat) (pack : Bool) (p : PackPlan) (data buf : Int) (blocks threads b t : Nat) : List (Int × Int) :=
  (loopBy blocks (p.size 1 * p.size 2) b).flatMap fun q =>
    let mid := q % p.size 1
    let slow := q / p.size 1
    let d := tuple * data + tuple * (mid * p.lineStride + slow * p.planeStride)
    let m := tuple * buf + q * p.size 0 * tuple
    (loopBy threads (p.size 0 * tuple) t).map fun i => if pack then (m + i, d + i) else (d + i, m + i)

/-- The integers of type `index` that one thread of `direct_packer` computes (cuda.cu:63-84). -/
def directValues (tuple : Nat) (p : PackPlan) (blocks threads b t : Nat) : List Int :=
  p.size 1 * p.size 2 :: (loopBy blocks (p.size 1 * p.size 2) b).flatMap fun q =>
    let mid := q % p.size 1
    let slow := q / p.size 1
    [mid * p.lineStride, slow * p.planeStride, mid * p.lineStride + slow * p.planeStride,
      tuple * (mid * p.lineStride + slow * p.planeStride), q * p.size 0, q * p.size 0 * tuple, p.size 0 * tuple, q + blocks] ++
      (loopBy threads (p.size 0 * tuple) t).map fun i => i + (threads : Int)

/-- The index of `source` in the six instances of `transpose_unpacker` (cuda.cu:104-127), without the factor `tuple_size`; nothing is
launched for other maps (cuda.cu:410-445). -/
def gpuSource (p : PackPlan) (i j k : Int) : Option Int :=
  if p.map 0 = 0 ∧ p.map 1 = 1 ∧ p.map 2 = 2 then some (k * p.buffPlane + j * p.buffLine + i)
  else if p.map 0 = 0 ∧ p.map 1 = 2 ∧ p.map 2 = 1 then some (j * p.buffPlane + k * p.buffLine + i)
  else if p.map 0 = 1 ∧ p.map 1 = 0 ∧ p.map 2 = 2 then some (k * p.buffPlane + i * p.buffLine + j)
  else if p.map 0 = 1 ∧ p.map 1 = 2 ∧ p.map 2 = 0 then some (i * p.buffPlane + k * p.buffLine + j)
  else if p.map 0 = 2 ∧ p.map 1 = 1 ∧ p.map 2 = 0 then some (i * p.buffPlane + j * p.buffLine + k)
  else if p.map 0 = 2 ∧ p.map 1 = 0 ∧ p.map 2 = 1 then some (j * p.buffPlane + i * p.buffLine + k)
  else none

/-- The moves of one thread of `transpose_unpacker` (cuda.cu:90-134). -/
def transposeThread (tuple : Nat) (p : PackPlan) (buf data : Int) (blocks threads b t : Nat) : List (Int × Int) :=
  (loopBy blocks (p.size 1 * p.size 2) b).flatMap fun q =>
    let j := q % p.size 1
    let k := q / p.size 1
    (loopBy threads (p.size 0) t).flatMap fun i =>
      match gpuSource p i j k with
      | none => []
      | some s =>
        (tuple * data + tuple * (k * p.planeStride + j * p.lineStride + i), tuple * buf + tuple * s) ::
          if 1 < tuple then [(tuple * data + (tuple * (k * p.planeStride + j * p.lineStride + i) + 1), tuple * buf + (tuple * s + 1))] else []

/-- The integers of type `index` that one thread of `transpose_unpacker` computes (cuda.cu:95-132); the terms of the two sums are not
larger than the sums. -/
def transposeValues (tuple : Nat) (p : PackPlan) (blocks threads b t : Nat) : List Int :=
  p.size 1 * p.size 2 :: (loopBy blocks (p.size 1 * p.size 2) b).flatMap fun q =>
    let j := q % p.size 1
    let k := q / p.size 1
    (q + blocks) :: (loopBy threads (p.size 0) t).flatMap fun i =>
      [tuple * (k * p.planeStride + j * p.lineStride + i) + (tuple - 1), i + threads] ++
        ((gpuSource p i j k).map fun s => (tuple : Int) * s + (tuple - 1)).toList

/-- `std::min(nmid * nslow, max_blocks)` (cuda.cu:388-391, 397-400, 408-444). -/
def packBlocks (p : PackPlan) : Nat := (min (p.size 1 * p.size 2) 65536).toNat

/-- `max_threads` (cuda.cu:346). -/
def maxThreads : Nat := 1024

/-- The moves of `direct_pack` and `direct_unpack` (cuda.cu:385-402); `transpose_packer<tag::gpu>::pack` is the same
(`heffte_backend_cuda.h`:817-822). -/
def gpuDirectMoves (tuple : Nat) (pack : Bool) (p : PackPlan) (data buf : Int) : List (Int × Int) :=
  allThreads (packBlocks p) maxThreads (directThread tuple pack p data buf (packBlocks p) maxThreads)

/-- `direct_pack` and `direct_unpack` (cuda.cu:385-402) with the moves in the given order. -/
def gpuDirect {γ : Type} (limit : Int) (tuple : Nat) (p : PackPlan) (order : List (Int × Int)) (src dst : List γ) : Res (List γ) :=
  runCopy limit (allThreads (packBlocks p) maxThreads (directValues tuple p (packBlocks p) maxThreads)) order src dst

/-- The moves of `transpose_unpack` (cuda.cu:404-447). -/
def gpuTransposeMoves (tuple : Nat) (p : PackPlan) (buf data : Int) : List (Int × Int) :=
  allThreads (packBlocks p) maxThreads (transposeThread tuple p buf data (packBlocks p) maxThreads)

/-- `transpose_unpack` (cuda.cu:404-447) with the moves in the given order. -/
def gpuTranspose {γ : Type} (limit : Int) (tuple : Nat) (p : PackPlan) (order : List (Int × Int)) (src dst : List γ) : Res (List γ) :=
  runCopy limit (allThreads (packBlocks p) maxThreads (transposeValues tuple p (packBlocks p) maxThreads)) order src dst

/-- The items of `sycl::range<3>{nslow, nmid, nfast}` (oneapi.cpp:108-109, 122-123, 138-139). -/
def items3 (p : PackPlan) : List (Int × Int × Int) :=
  (loop (p.size 2)).flatMap fun i => (loop (p.size 1)).flatMap fun j => (loop (p.size 0)).map fun k => (i, j, k)

/-- `direct_pack` and `direct_unpack` (oneapi.cpp:103-129); the index computations are done with `size_t`. -/
def oneDirectMoves (pack : Bool) (p : PackPlan) (data buf : Int) : List (Int × Int) :=
  (items3 p).map fun (i, j, k) =>
    let d := data + (i * p.planeStride + j * p.lineStride + k)
    let m := buf + (i * p.size 1 * p.size 0 + j * p.size 0 + k)
    if pack then (m, d) else (d, m)

/-- `transpose_unpack` (oneapi.cpp:131-199); the third entry of the map is not used. -/
def oneTransposeMoves (p : PackPlan) (buf data : Int) : Res (List (Int × Int)) :=
  let moves := fun s : Int → Int → Int → Int => .ok <| (items3 p).map fun (i, j, k) =>
    (data + (i * p.planeStride + j * p.lineStride + k), buf + s i j k)
  if p.map 0 = 0 ∧ p.map 1 = 1 then moves fun i j k => i * p.buffPlane + j * p.buffLine + k
  else if p.map 0 = 0 ∧ p.map 1 = 2 then moves fun i j k => j * p.buffPlane + i * p.buffLine + k
  else if p.map 0 = 1 ∧ p.map 1 = 0 then moves fun i j k => i * p.buffPlane + k * p.buffLine + j
  else if p.map 0 = 1 ∧ p.map 1 = 2 then moves fun i j k => k * p.buffPlane + i * p.buffLine + j
  else if p.map 0 = 2 ∧ p.map 1 = 0 then moves fun i j k => j * p.buffPlane + k * p.buffLine + i
  else if p.map 0 = 2 ∧ p.map 1 = 1 then moves fun i j k => k * p.buffPlane + j * p.buffLine + i
  else .error .runtime

/-! ## Conversion and scaling -/

/-- The number of blocks of `thread_grid_1d` (cuda.cu:333-343): the number of entries is converted to `int`, the division of C++
rounds towards zero. -/
def gridBlocks (n : Int) : Int :=
  let total := toInt32 n
  min (total.tdiv maxThreads + if total.tmod maxThreads = 0 then 0 else 1) 65536

/-- The value that a statement writes: an entry of the other array, or the constant 0. -/
def valueOf {β : Type} [Zero β] (src : List β) : Option Int → Option β
  | some a => rd src a
  | none => some 0

/-- The statements of one thread of `real_complex_convert` (cuda.cu:43-56); `blockIdx.x * num_threads + threadIdx.x` is unsigned and
below `2 ^ 26 + 2 ^ 10`.  A write is the address and the address that is read, `none` for the constant 0. -/
def convertThread (toComplex : Bool) (n : Int) (blocks threads b t : Nat) : List (Int × Option Int) :=
  (loopBy (threads * blocks) n (b * threads + t)).flatMap fun i =>
    if toComplex then [(2 * i, some i), (2 * i + 1, none)] else [(i, some (2 * i))]

/-- The integers of type `index` that one thread of `real_complex_convert` computes. -/
def convertValues (toComplex : Bool) (n : Int) (blocks threads b t : Nat) : List Int :=
  (loopBy (threads * blocks) n (b * threads + t)).flatMap fun i => [if toComplex then 2 * i + 1 else 2 * i, i + (threads * blocks : Nat)]

/-- The statements of `convert` (cuda.cu:352-361). -/
def convertAll (toComplex : Bool) (n : Int) : List (Int × Option Int) :=
  allThreads (gridBlocks n).toNat maxThreads (convertThread toComplex n (gridBlocks n).toNat maxThreads)

/-- `convert` (cuda.cu:352-361): a launch with a number of blocks that is not positive fails, which is not looked at. -/
def gpuConvert {β : Type} [Zero β] (limit : Int) (toComplex : Bool) (n : Int) (order : List (Int × Option Int)) (src dst : List β) :
    Res (List β) :=
  if gridBlocks n ≤ 0 then .ok dst
  else if (allThreads (gridBlocks n).toNat maxThreads (convertValues toComplex n (gridBlocks n).toNat maxThreads)).all
      (fun v => decide (v < limit)) then
    writeAll (order.map fun w => (w.1, valueOf src w.2)) dst
  else .error .ub

/-- `convert` (oneapi.cpp:56-79), one item for each entry; the indexes are of type `size_t`. -/
def oneConvertAll (toComplex : Bool) (n : Int) : List (Int × Option Int) :=
  (loop n).flatMap fun i => if toComplex then [(2 * i, some i), (2 * i + 1, none)] else [(i, some (2 * i))]

/-- The statements `data[i] *= scaling_factor`. -/
def scaleAt {β : Type} [Mul β] (f : β) : List Int → List β → Res (List β)
  | [], mem => .ok mem
  | i :: t, mem =>
    match rd mem i with
    | none => .error .ub
    | some x =>
      match wr mem i (x * f) with
      | none => .error .ub
      | some m => scaleAt f t m

/-- The entries that one thread of `simple_scal` scales (cuda.cu:138-145). -/
def scaleThread (n : Int) (blocks threads b t : Nat) : List Int := loopBy (threads * blocks) n (b * threads + t)

/-- The entries that `scale_data` scales (cuda.cu:471-478). -/
def scaleAll (n : Int) : List Int := allThreads (gridBlocks n).toNat maxThreads (scaleThread n (gridBlocks n).toNat maxThreads)

/-- `scale_data` (cuda.cu:471-478) with `index = long long`, the instance that `data_scaling::apply` uses (`heffte_backend_cuda.h`:836-839,
`heffte_backend_rocm.h`:970-973).  `checks`: CUDA looks at the error of the launch (cuda.cu:477), ROCm does not. -/
def gpuScale {β : Type} [Mul β] (checks : Bool) (n : Int) (f : β) (order : List Int) (mem : List β) : Res (List β) :=
  if n = 0 then .ok mem
  else if gridBlocks n ≤ 0 then if checks then .error .runtime else .ok mem
  else scaleAt f order mem

/-- `data_scaling::apply` for `n` complex numbers (`heffte_backend_cuda.h`:845-847): the number of the reals. -/
def complexEntries (n : Int) : Int := 2 * n

/-- The entries that `scale_data` of oneAPI scales (oneapi.cpp:222-230). -/
def oneScaleAll (n : Int) : List Int := loop n

/-- The number of reals that `magma_handle::scal` passes to the scaling of MAGMA (`heffte_magma_helpers.h`:46-54), which replaces
`data_scaling::apply` when MAGMA is enabled (fft3d.h:666-671): the parameter `num_entries` is an `int`. -/
def magmaCount (isComplex : Bool) (n : Int) : Res Int :=
  let c := toInt32 n
  if isComplex then if -2 ^ 31 ≤ 2 * c ∧ 2 * c < 2 ^ 31 then .ok (2 * c) else .error .ub else .ok c

/-! ## Sine and cosine transforms -/

section
variable {β : Type} [Zero β] [Neg β]

/-- `BLK_X` (cuda.cu:147). -/
def blkX : Nat := 256

/-- `(length + BLK_X-1)/BLK_X` (cuda.cu:488). -/
def trigBlocks (n : Int) : Nat := ((n + blkX - 1) / blkX).toNat

/-- One thread of the `pre_forward` kernels (cuda.cu:152-165, 209-222, 271-284); `x i` is `input[i]`. -/
def gpuPreForward (z : Trig) (n : Int) (x : Int → Option β) (b t : Nat) : List (Int × Option β) :=
  let ind : Int := b * blkX + t
  match z with
  | .cos =>
    (if ind < n then [(2 * ind, some 0), (2 * ind + 1, x ind)] else []) ++ [(2 * n, some 0)] ++
      if ind < n then [(4 * n - 2 * ind, some 0), (4 * n - 2 * ind - 1, x ind)] else []
  | .sin =>
    (if ind < n then [(2 * ind, some 0), (2 * ind + 1, x ind)] else []) ++ [(2 * n, some 0)] ++
      if ind < n then [(4 * n - 2 * ind, some 0), (4 * n - 2 * ind - 1, (x ind).map fun y => -y)] else []
  | .cos1 =>
    (if ind < n then [(2 * ind, x ind), (2 * ind + 1, some 0)] else []) ++
      if 0 < ind ∧ ind < n then [(4 * (n - 1) - 2 * ind, x ind), (4 * (n - 1) - 2 * ind + 1, some 0)] else []

/-- One thread of the `post_forward` kernels (cuda.cu:167-174, 225-231, 288-296); `y i` is `fft_signal[i]`, an array of reals. -/
def gpuPostForward (z : Trig) (n : Int) (y : Int → Option β) (b t : Nat) : List (Int × Option β) :=
  let ind : Int := b * blkX + t
  if ind < n then
    match z with
    | .cos => [(ind, y (2 * ind))]
    | .sin => [(ind, (y (2 * (ind + 1) + 1)).map fun v => -v)]
    | .cos1 => [(ind, y (2 * ind))]
  else []

/-- One thread of the `pre_backward` kernels (cuda.cu:178-194, 236-256, 302-315); `fft_signal` is an array of reals. -/
def gpuPreBackward (z : Trig) (n : Int) (x : Int → Option β) (b t : Nat) : List (Int × Option β) :=
  let ind : Int := b * blkX + t
  match z with
  | .cos =>
    (if ind < n then [(2 * ind, x ind), (2 * ind + 1, some 0)] else []) ++ (if ind = 0 then [(2 * n, some 0), (2 * n + 1, some 0)] else []) ++
      if ind < n then [(2 * (n + ind + 1), (x (n - ind - 1)).map fun v => -v), (2 * (n + ind + 1) + 1, some 0)] else []
  | .sin =>
    (if ind = 0 then [(0, some 0), (1, some 0)] else []) ++
      (if ind < n then [(2 * (ind + 1), some 0), (2 * (ind + 1) + 1, (x ind).map fun v => -v)] else []) ++
      if ind = n - 1 then [(4 * n, some 0), (4 * n + 1, some 0)]
      else if ind < n then [(2 * (n + ind + 1), some 0), (2 * (n + ind + 1) + 1, (x (n - ind - 2)).map fun v => -v)] else []
  | .cos1 =>
    (if ind < n then [(2 * ind, x ind), (2 * ind + 1, some 0)] else []) ++
      if ind < n then [(4 * (n - 1) - 2 * ind, x ind), (4 * (n - 1) - 2 * ind + 1, some 0)] else []

/-- One thread of the `post_backward` kernels (cuda.cu:197-204, 259-266, 319-327). -/
def gpuPostBackward (z : Trig) (n : Int) (y : Int → Option β) (b t : Nat) : List (Int × Option β) :=
  let ind : Int := b * blkX + t
  if ind < n then
    match z with
    | .cos => [(ind, y (1 + 2 * ind))]
    | .sin => [(ind, y (1 + 2 * ind))]
    | .cos1 => [(ind, y (2 * ind))]
  else []

/-- The four kernels of the processors (cuda.cu:485-568). -/
inductive Stage where
  | preForward
  | postForward
  | preBackward
  | postBackward

/-- The statements of a launch of a processor on a line of length `n` (cuda.cu:485-568). -/
def trigAll (s : Stage) (z : Trig) (n : Int) (x : Int → Option β) : List (Int × Option β) :=
  allThreads (trigBlocks n) blkX fun b t =>
    match s with
    | .preForward => gpuPreForward z n x b t
    | .postForward => gpuPostForward z n x b t
    | .preBackward => gpuPreBackward z n x b t
    | .postBackward => gpuPostBackward z n x b t

/-- The statements of the item `i` of the processors of oneAPI (oneapi.cpp:246-362); there is no processor for `cos1`. -/
def oneItem (s : Stage) (z : Trig) (n : Int) (x : Int → Option β) (i : Int) : List (Int × Option β) :=
  match s, z with
  | .preForward, .cos => [(2 * i, some 0), (2 * i + 1, x i), (2 * n, some 0), (4 * n - 2 * i, some 0), (4 * n - 2 * i - 1, x i)]
  | .preForward, .sin =>
    [(2 * i, some 0), (2 * i + 1, x i), (2 * n, some 0), (4 * n - 2 * i, some 0), (4 * n - 2 * i - 1, (x i).map fun v => -v)]
  | .postForward, .cos => [(i, x (2 * i))]
  | .postForward, .sin => [(i, (x (2 * (i + 1) + 1)).map fun v => -v)]
  | .preBackward, .cos =>
    [(2 * i, x i), (2 * i + 1, some 0)] ++ (if i = 0 then [(2 * n, some 0), (2 * n + 1, some 0)] else []) ++
      [(2 * (n + i + 1), (x (n - i - 1)).map fun v => -v), (2 * (n + i + 1) + 1, some 0)]
  | .preBackward, .sin =>
    (if i = 0 then [(0, some 0), (1, some 0)] else []) ++
      (if i < n then [(2 * (i + 1), some 0), (2 * (i + 1) + 1, (x i).map fun v => -v)] else []) ++
      if i = n - 1 then [(4 * n, some 0), (4 * n + 1, some 0)]
      else if i < n then [(2 * (n + i + 1), some 0), (2 * (n + i + 1) + 1, (x (n - i - 2)).map fun v => -v)] else []
  | .postBackward, .cos => [(i, x (1 + 2 * i))]
  | .postBackward, .sin => [(i, x (1 + 2 * i))]
  | _, .cos1 => []

/-- The statements of the processors of oneAPI, one item for each entry. -/
def oneTrigAll (s : Stage) (z : Trig) (n : Int) (x : Int → Option β) : List (Int × Option β) := (loop n).flatMap (oneItem s z n x)

/-! ## The executor of the sine and cosine transforms

`real2real_executor` (r2r.h:183-292) with a GPU library for the real-to-complex transforms.  The workspace is one array of reals that
holds both arrays, and the library is an arbitrary function on it. -/

/-- `align<cufft>::pntr` (common.h:601-639) for a pointer at the distance `a` (in reals) from the workspace, which starts at the address
`addr` (in reals); other backends do not align. -/
def alignAt (aligned : Bool) (addr a : Int) : Int := if aligned then if (addr + a) % 2 = 0 then a else a + 1 else a

/-- A library for the real-to-complex transforms: `forward temp ctemp` and `backward ctemp temp` (r2r.h:229, 242) on the workspace. -/
structure TrigLib (β : Type) where
  forward : Int → Int → List β → List β
  backward : Int → Int → List β → List β

/-- The parts of an executor: the length, the extended length, the number of lines, the size of the box of the library, `aligned`
and `addr` of `alignAt`. -/
structure TrigDims where
  z : Trig
  n : Int
  lines : Int
  aligned : Bool
  addr : Int

/-- `extended_length` (r2r.h:203). -/
def TrigDims.ext (t : TrigDims) : Int := t.z.extended t.n

/-- `fft->box_size()`: the lines have the extended length (r2r.h:32-36). -/
def TrigDims.boxSize (t : TrigDims) : Int := t.ext * t.lines

/-- `fft->complex_size()`. -/
def TrigDims.complexSize (t : TrigDims) : Int := (t.ext / 2 + 1) * t.lines

/-- `workspace_size` (r2r.h:259-262) when the library needs `work` complex numbers. -/
def TrigDims.workspace (t : TrigDims) (work : Int) : Int := t.boxSize + 2 * t.complexSize + 2 * work + if t.aligned then 2 else 1

/-- `temp` (r2r.h:222, 236). -/
def TrigDims.temp (t : TrigDims) : Int := alignAt t.aligned t.addr 0

/-- `ctemp` (r2r.h:223, 237), in reals. -/
def TrigDims.ctemp (t : TrigDims) : Int := alignAt t.aligned t.addr (t.boxSize + 1)

/-- The orders in which the statements of the launches happen; `s c l` is the one for the line `c`. -/
abbrev Schedule (β : Type) := Stage → Int → List (Int × Option β) → List (Int × Option β)

/-- `real2real_executor::forward` (r2r.h:220-232) on the data from address `base` on; `all` are the statements of the processors.  The
real-to-complex executor of an empty box is a null pointer (common.h:670-708). -/
def gpuForwardR2R (all : Stage → Trig → Int → (Int → Option β) → List (Int × Option β)) (sched : Schedule β) (lib : TrigLib β) (t : TrigDims)
    (base : Int) (ws data : List β) : Res (List β) :=
  if t.boxSize ≤ 0 then .error .ub
  else do
    let ws1 ← (loop t.lines).foldlM (fun m i => writeAll (shiftBy (t.temp + i * t.ext)
      (sched .preForward i (all .preForward t.z t.n fun k => rd data (base + i * t.n + k)))) m) ws
    let ws2 := lib.forward t.temp t.ctemp ws1
    (loop t.lines).foldlM (fun m i => writeAll (shiftBy (base + i * t.n)
      (sched .postForward i (all .postForward t.z t.n fun k => rd ws2 (t.ctemp + 2 * (i * (t.ext / 2 + 1)) + k)))) m) data

/-- `real2real_executor::backward` (r2r.h:234-245). -/
def gpuBackwardR2R (all : Stage → Trig → Int → (Int → Option β) → List (Int × Option β)) (sched : Schedule β) (lib : TrigLib β) (t : TrigDims)
    (base : Int) (ws data : List β) : Res (List β) :=
  if t.boxSize ≤ 0 then .error .ub
  else do
    let ws1 ← (loop t.lines).foldlM (fun m i => writeAll (shiftBy (t.ctemp + 2 * (i * (t.ext / 2 + 1)))
      (sched .preBackward i (all .preBackward t.z t.n fun k => rd data (base + i * t.n + k)))) m) ws
    let ws2 := lib.backward t.ctemp t.temp ws1
    (loop t.lines).foldlM (fun m i => writeAll (shiftBy (base + i * t.n)
      (sched .postBackward i (all .postBackward t.z t.n fun k => rd ws2 (t.temp + i * t.ext + k)))) m) data

/-- `forward` or `backward`. -/
def gpuR2R (all : Stage → Trig → Int → (Int → Option β) → List (Int × Option β)) (sched : Schedule β) (lib : TrigLib β) (fwd : Bool) (t : TrigDims)
    (base : Int) (ws data : List β) : Res (List β) :=
  if fwd then gpuForwardR2R all sched lib t base ws data else gpuBackwardR2R all sched lib t base ws data

end
end Verif
