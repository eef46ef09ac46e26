import Verif.ExecLines
import Verif.Gpu

/-!
# The executors of the other backends

`/repo/include/heffte_backend_cuda.h` is cited as `cuda.h`, `heffte_backend_rocm.h` as `rocm.h`, `heffte_backend_mkl.h` as `mkl.h`,
`heffte_backend_oneapi.h` as `oneapi.h`.

The libraries are described by what they do with the numbers that the executors give them: a plan has sizes and strides, a number of
transforms and a distance, and a multi-dimensional transform is the transform in one dimension after the other.  The transform of a line is a
parameter.  The fields of the executors are of type `int`; their values are the ones of a box with fewer than `2 ^ 31` entries, which
`total_size` needs anyhow, and no overflow is modelled.
-/

namespace Verif
variable {α β : Type}

/-- The libraries. -/
inductive Vendor where
  | cufft
  | rocfft
  | mkl
  | onemkl

/-! ## Complex data -/

/-- A plan of a library: sizes and strides of the dimensions, the number of the transforms and the distance between them. -/
structure Layout where
  dims : List (Int × Int)
  howmany : Int
  dist : Int

/-- The positions `k * stride + …` for all indexes. -/
def spread : List (Int × Int) → List Int
  | [] => [0]
  | (n, s) :: t => (loop n).flatMap fun k => (spread t).map fun x => k * s + x

/-- The first entries of the lines in the dimension `i`. -/
def Layout.starts (l : Layout) (i : Nat) : List Int := spread ((l.howmany, l.dist) :: (l.dims.eraseIdx i).reverse)

/-- The transform of a library, in place. -/
def Layout.run (T : Nat → Int × Int → List α → Res (List α)) (l : Layout) (base : Int) (mem : List α) : Res (List α) :=
  (List.range l.dims.length).foldlM (fun m i =>
    match l.dims[i]? with
    | none => .ok m
    | some (n, s) => linePass (T n.toNat) n s ((l.starts i).map fun x => base + x) m) mem

/-- The fields of the executors for complex data (cuda.h:569-570, rocm.h:720-721, mkl.h:305-306, oneapi.h:544-545); the leading zero of
`embed` in `onemkl_executor` is left out. -/
structure VExec where
  size : Int
  size2 : Int
  howmany : Int
  stride : Int
  dist : Int
  blocks : Int
  blockStride : Int
  embed : Int × Int

/-- One direction (cuda.h:446-456, rocm.h:558-572, mkl.h:185-194, oneapi.h:397-409). -/
def vexec1 (b : Box) (d : Fin 3) : VExec where
  size := b.size d
  size2 := 0
  howmany := howMany b d
  stride := lineStride b d
  dist := if d = b.order 0 then b.size d else 1
  blocks := numBlocks b d
  blockStride := b.osize 0 * b.osize 1
  embed := (0, 0)

/-- Two directions (cuda.h:459-481, rocm.h:574-600, mkl.h:197-220, oneapi.h:412-438). -/
def vexec2 (v : Vendor) (b : Box) (dir1 dir2 : Fin 3) : VExec :=
  let size := b.size (min dir1 dir2)
  let size2 := b.size (max dir1 dir2)
  let o1 := b.findOrder dir1
  let o2 := b.findOrder dir2
  if min o1 o2 = 0 ∧ max o1 o2 = 1 then
    ⟨size, size2, b.size 2, 1, size * size2, 1, 0, match v with | .cufft => (0, 0) | _ => (1, size)⟩
  else if min o1 o2 = 1 ∧ max o1 o2 = 2 then
    ⟨size, size2, b.size 0, b.size 0, 1, 1, 0, match v with | .cufft => (0, 0) | _ => (b.size 0, size * b.size 0)⟩
  else
    ⟨size, size2, b.size 1, 1, size, 1, 0, match v with | .cufft => (b.size 2, b.size 1 * b.size 0) | _ => (1, b.size 1 * b.size 0)⟩

/-- Three directions (cuda.h:484-491, rocm.h:603-611, mkl.h:223-229, oneapi.h:441-448). -/
def vexec3 (b : Box) : VExec := ⟨b.size 0, b.size 1, b.size 2, 0, 0, 1, 0, (0, 0)⟩

/-- `make_plan` (cuda.h:555-564, rocm.h:706-715, mkl.h:293-302, oneapi.h:508-533) and the plans that it makes.

* Three dimensions: cuFFT (cuda.h:405-414), MKL (mkl.h:145-154) and oneMKL (oneapi.h:447) get the sizes from the slowest to the fastest, rocFFT
  (rocm.h:497-522) from the fastest to the slowest; all of them without strides.
* One dimension: cuda.h:356-369, rocm.h:433-458, mkl.h:93-109, oneapi.h:521-527.
* Two dimensions: rocm.h:468-495, mkl.h:119-138 and oneapi.h:528-534 set one stride for each dimension; cuFFT (cuda.h:380-403) has the entry
  `(j0, j1)` at `stride * (j0 * e1 + j1)`, where `e1` is the second entry of `embed` or of the sizes. -/
def VExec.plan (v : Vendor) (e : VExec) : Layout :=
  if e.dist = 0 then ⟨[(e.size, 1), (e.size2, e.size), (e.howmany, e.size * e.size2)], 1, 1⟩
  else if e.size2 = 0 then ⟨[(e.size, e.stride)], e.howmany, e.dist⟩
  else
    match v with
    | .cufft =>
      let e1 := if e.embed.1 = 0 ∧ e.embed.2 = 0 then e.size else e.embed.2
      ⟨[(e.size, e.stride), (e.size2, e.stride * e1)], e.howmany, e.dist⟩
    | _ => ⟨[(e.size, e.embed.1), (e.size2, e.embed.2)], e.howmany, e.dist⟩

/-- `forward` and `backward` of complex data (cuda.h:494-524, rocm.h:615-664, mkl.h:232-262, oneapi.h:451-477). -/
def VExec.run (v : Vendor) (T : Nat → Int × Int → List α → Res (List α)) (e : VExec) (base : Int) (mem : List α) : Res (List α) :=
  (loop e.blocks).foldlM (fun m i => (e.plan v).run T (base + i * e.blockStride) m) mem

/-! ## Real and complex data -/

/-- One call of a library that transforms `howmany` lines from one array to another, `n` entries to `m` entries. -/
def libOut (T : List α → Res (List β)) (n m : Nat) (howmany stride idist odist ibase obase : Int) (src : List α) (dst : List β) :
    Res (List β) :=
  runOut (fun _ => T) n m stride src ((loop howmany).map fun p => [(ibase + p * idist, obase + p * odist)]) dst

/-- The distances of the lines in the real and in the complex array (cuda.h:649-650, rocm.h:755-756, mkl.h:383-384, oneapi.h:580-581). -/
def rDist (b : Box) (d : Fin 3) : Int := if d = b.order 0 then b.size d else 1
def cDist (b : Box) (d : Fin 3) : Int := if d = b.order 0 then b.size d / 2 + 1 else 1

/-- `rblock_stride` and `cblock_stride` (cuda.h:651-652, rocm.h:757-758, mkl.h:385-386, oneapi.h:582-583). -/
def rBlock (b : Box) : Int := b.osize 0 * b.osize 1
def cBlock (b : Box) : Int := b.osize 0 * (b.osize 1 / 2 + 1)

/-- One call of the library in the real-to-complex direction. -/
def libForward (T : List α → Res (List β)) (b : Box) (d : Fin 3) (ibase obase : Int) (src : List α) (dst : List β) : Res (List β) :=
  libOut T (b.size d).toNat ((b.size d + 2) / 2).toNat (howMany b d) (lineStride b d) (rDist b d) (cDist b d) ibase obase src dst

/-- One call of the library in the complex-to-real direction.  The libraries may overwrite the input, which is not read again. -/
def libBackward (T : List α → Res (List β)) (b : Box) (d : Fin 3) (ibase obase : Int) (src : List α) (dst : List β) : Res (List β) :=
  libOut T ((b.size d + 2) / 2).toNat (b.size d).toNat (howMany b d) (lineStride b d) (cDist b d) (rDist b d) ibase obase src dst

/-- `mkl_executor_r2c::forward` (mkl.h:392-417) and `onemkl_executor_r2c::forward` (oneapi.h:591-611). -/
def mklR2C (T : List α → Res (List β)) (b : Box) (d : Fin 3) (rbase cbase : Int) (src : List α) (dst : List β) : Res (List β) :=
  (loop (numBlocks b d)).foldlM (fun m i => libForward T b d (rbase + i * rBlock b) (cbase + i * cBlock b) src m) dst

/-- `mkl_executor_r2c::backward` (mkl.h:401-424) and `onemkl_executor_r2c::backward` (oneapi.h:598-617). -/
def mklC2R (T : List α → Res (List β)) (b : Box) (d : Fin 3) (cbase rbase : Int) (src : List α) (dst : List β) : Res (List β) :=
  (loop (numBlocks b d)).foldlM (fun m i => libBackward T b d (cbase + i * cBlock b) (rbase + i * rBlock b) src m) dst

/-- `copy_n` between arrays of the same type. -/
def copyRange {γ : Type} (src : List γ) (sbase n : Int) (dst : List γ) (dbase : Int) : Res (List γ) :=
  copyMoves ((loop n).map fun i => (dbase + i, sbase + i)) src dst

/-- `blocks == 1 or rblock_stride % 2 == 0` (cuda.h:660). -/
def cufftDirect (b : Box) (d : Fin 3) : Bool := numBlocks b d = 1 || rBlock b % 2 = 0

/-- `workspace_size` (cuda.h:734), in complex numbers. -/
def cufftWork (b : Box) (d : Fin 3) : Int := if cufftDirect b d then 0 else rBlock b / 2 + 1

/-- Where the arrays are, in units of the size of a real number. -/
structure Places where
  real : Int
  cplx : Int
  work : Int

/-- cuFFT requires that the arrays of real-to-complex transforms are aligned to the complex type (common.h:597-600); a call that does not
meet a requirement of the library is undefined. -/
def aligned2 (raddr caddr : Int) : Bool := raddr % 2 = 0 && caddr % 2 = 0

/-- One block of `cufft_executor_r2c::forward` (cuda.h:661-665, 667-673, single precision; 697-701, 703-708, double precision). -/
def cufftBlockR2C (T : List β → Res (List α)) (b : Box) (d : Fin 3) (at' : Places) (rbase cbase : Int) (src : List β) (m : List β × List α)
    (i : Int) : Res (List β × List α) :=
  let c := cbase + i * cBlock b
  if cufftDirect b d then
    let r := rbase + i * rBlock b
    if aligned2 (at'.real + r) (at'.cplx + 2 * c) then do
      return (m.1, ← libForward T b d r c src m.2)
    else .error .ub
  else do
    let r := alignAt true at'.work 0
    let w ← copyRange src (rbase + i * rBlock b) (rBlock b) m.1 r
    if aligned2 (at'.work + r) (at'.cplx + 2 * c) then
      return (w, ← libForward T b d r c w m.2)
    else .error .ub

/-- `cufft_executor_r2c::forward` (cuda.h:658-675, 694-710): the real data from `rbase` on, the complex data from `cbase` on, the workspace (an
array of reals) from its start on.  The results are the workspace and the complex array. -/
def cufftR2C (T : List β → Res (List α)) (b : Box) (d : Fin 3) (at' : Places) (rbase cbase : Int) (ws src : List β) (dst : List α) :
    Res (List β × List α) :=
  (loop (numBlocks b d)).foldlM (cufftBlockR2C T b d at' rbase cbase src) (ws, dst)

/-- One block of `cufft_executor_r2c::backward` (cuda.h:680-683, 686-690; 715-718, 721-725). -/
def cufftBlockC2R (T : List α → Res (List β)) (b : Box) (d : Fin 3) (at' : Places) (cbase rbase : Int) (src : List α) (m : List β × List β)
    (i : Int) : Res (List β × List β) :=
  let c := cbase + i * cBlock b
  if cufftDirect b d then
    let r := rbase + i * rBlock b
    if aligned2 (at'.real + r) (at'.cplx + 2 * c) then do
      return (m.1, ← libBackward T b d c r src m.2)
    else .error .ub
  else
    let r := alignAt true at'.work 0
    if aligned2 (at'.work + r) (at'.cplx + 2 * c) then do
      let w ← libBackward T b d c r src m.1
      return (w, ← copyRange w r (rBlock b) m.2 (rbase + i * rBlock b))
    else .error .ub

/-- `cufft_executor_r2c::backward` (cuda.h:677-692, 712-727). -/
def cufftC2R (T : List α → Res (List β)) (b : Box) (d : Fin 3) (at' : Places) (cbase rbase : Int) (ws : List β) (src : List α)
    (dst : List β) : Res (List β × List β) :=
  (loop (numBlocks b d)).foldlM (cufftBlockC2R T b d at' cbase rbase src) (ws, dst)

/-- The bytes of the temporary arrays of rocFFT: `size_work` of the four plans (rocm.h:862-869). -/
structure RocWork where
  sforward : Int
  sbackward : Int
  dforward : Int
  dbackward : Int

/-- `compute_workspace_size` (rocm.h:850-860), in complex numbers. -/
def rocWork (w : RocWork) (b : Box) (d : Fin 3) : Int :=
  let r := b.count
  let c := (b.r2c d).count
  max (max (w.sforward + r * 4) (w.sbackward + c * 8) / 8) (max (w.dforward + r * 8) (w.dbackward + c * 16) / 16) + 1

/-- What the calls of the library do to the workspace; the first argument is the number of the call. -/
def Scribble (β : Type) := Nat → List β → List β

/-- `rocfft_executor_r2c::forward` (rocm.h:768-795): the data are copied to the workspace behind the temporary array of the library, which has
`w` reals. -/
def rocR2C (T : List β → Res (List α)) (scribble : Scribble β) (b : Box) (d : Fin 3) (w rbase cbase : Int) (ws src : List β)
    (dst : List α) : Res (List β × List α) := do
  let ws ← copyRange src rbase b.count ws w
  (loop (numBlocks b d)).foldlM (fun m i => do
    let dst ← libForward T b d (w + i * rBlock b) (cbase + i * cBlock b) m.1 m.2
    return (scribble i.toNat m.1, dst)) (ws, dst)

/-- `rocfft_executor_r2c::backward` (rocm.h:798-825): here the workspace is an array of complex numbers and the temporary array has the size
of `w` of them. -/
def rocC2R (T : List α → Res (List β)) (scribble : Scribble α) (b : Box) (d : Fin 3) (w cbase rbase : Int) (ws src : List α)
    (dst : List β) : Res (List α × List β) := do
  let ws ← copyRange src cbase (b.r2c d).count ws w
  (loop (numBlocks b d)).foldlM (fun m i => do
    let dst ← libBackward T b d (w + i * cBlock b) (rbase + i * rBlock b) m.1 m.2
    return (scribble i.toNat m.1, dst)) (ws, dst)

/-- The first executor on a batch (compute_transform.cpp:155-158, 166-171): the array number `j` begins `box_size` and `complex_size` entries
after the one before. -/
def cufftBatchR2C (T : List β → Res (List α)) (b : Box) (d : Fin 3) (at' : Places) (nb : Nat) (rbase cbase : Int) (ws src : List β)
    (dst : List α) : Res (List β × List α) :=
  (List.range nb).foldlM (fun m (j : Nat) => cufftR2C T b d at' (rbase + j * b.count) (cbase + j * (b.r2c d).count) m.1 src m.2) (ws, dst)

/-- The last executor on a batch (compute_transform.cpp:240-256). -/
def cufftBatchC2R (T : List α → Res (List β)) (b : Box) (d : Fin 3) (at' : Places) (nb : Nat) (cbase rbase : Int) (ws : List β)
    (src : List α) (dst : List β) : Res (List β × List β) :=
  (List.range nb).foldlM (fun m (j : Nat) => cufftC2R T b d at' (cbase + j * (b.r2c d).count) (rbase + j * b.count) m.1 src m.2) (ws, dst)

end Verif
