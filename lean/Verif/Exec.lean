import Verif.Mem
import Verif.StockFFT

/-!
# The executors: many one dimensional transforms on the array of a box

`/repo/include/heffte_backend_stock.h` is cited as `stock.h`, `/repo/include/heffte_backend_fftw.h` as `fftw.h`,
`/repo/include/heffte_geometry.h` as `geometry.h`.

The transform of one line is a parameter `T`: it gets the entries of the line and may depend on the line (its first argument),
which stands for whatever the work memory of the plan holds when the line is processed.
-/

namespace Verif
variable {α β : Type}

/-- The `n` entries from `start` on with distance `stride`, `none` if one of them is out of bounds. -/
def readLine (mem : List α) (start stride : Int) (n : Nat) : Option (List α) :=
  (List.range n).mapM fun (i : Nat) => rd mem (start + i * stride)

/-- Read one line and transform it. -/
def runLine (T : Int × Int → List α → Res (List β)) (n : Nat) (stride : Int) (src : List α) (s : Int × Int) : Res (List β) :=
  match readLine src s.1 stride n with
  | none => .error .ub
  | some v => T s v

/-- One call of the vectorized transform (stock.h:267-281, 286-301 and 146-161, 165-184, 195-209, 213-229; one lane: 337-354, 362-379,
414-427).  `lanes` has the positions of the first entries of each line in the input and in the output; all lines are
read, then transformed, then written, entry by entry with the lanes in the inner loop.  The padded lanes of the remainder are
not written and do not exist here. -/
def runGroup (T : Int × Int → List α → Res (List β)) (n m : Nat) (stride : Int) (src : List α) (lanes : List (Int × Int))
    (dst : List β) : Res (List β) := do
  let outs ← lanes.mapM (runLine T n stride src)
  writeAll ((List.range m).flatMap fun (i : Nat) => (lanes.zip outs).map fun e => (e.1.2 + i * stride, e.2[i]?)) dst

/-- All the groups, input and output in the same array. -/
def runInPlace (T : Int × Int → List α → Res (List α)) (n : Nat) (stride : Int) : List (List (Int × Int)) → List α → Res (List α)
  | [], mem => .ok mem
  | g :: t, mem => do runInPlace T n stride t (← runGroup T n n stride mem g mem)

/-- All the groups, input and output in different arrays. -/
def runOut (T : Int × Int → List α → Res (List β)) (n m : Nat) (stride : Int) (src : List α) :
    List (List (Int × Int)) → List β → Res (List β)
  | [], dst => .ok dst
  | g :: t, dst => do runOut T n m stride src t (← runGroup T n m stride src g dst)

/-- The transforms that are done together, for `w` lanes (stock.h:266, 285-288; `w = 1` without AVX: 414): as many full groups
as there are, then the remainder. -/
def groupsOf (w : Nat) (num : Int) : List (List Int) :=
  ((loopBy w (num - (w - 1)) 0).map fun p => (loop w).map (p + ·)) ++
    if num % w > 0 then [(loop (num % w)).map (num - num % w + ·)] else []

/-- `fft1d_get_howmany` (geometry.h:160-164). -/
def howMany (b : Box) (d : Fin 3) : Int :=
  if d = b.order 0 then b.osize 1 * b.osize 2
  else if d = b.order 1 then b.osize 0
  else b.osize 0 * b.osize 1

/-- `fft1d_get_stride` (geometry.h:170-174). -/
def lineStride (b : Box) (d : Fin 3) : Int :=
  if d = b.order 0 then 1
  else if d = b.order 1 then b.osize 0
  else b.osize 0 * b.osize 1

/-- `blocks` of the executors (stock.h:459, 563; fftw.h:224, 428). -/
def numBlocks (b : Box) (d : Fin 3) : Int := if d = b.order 1 then b.osize 2 else 1

/-- The groups of lines of an executor; `dist`, `block` for the input and the output. -/
def laneGroups (w : Nat) (b : Box) (d : Fin 3) (ibase idist iblock obase odist oblock : Int) : List (List (Int × Int)) :=
  (loop (numBlocks b d)).flatMap fun i => (groupsOf w (howMany b d)).map fun ps =>
    ps.map fun p => (ibase + i * iblock + p * idist, obase + i * oblock + p * odist)

/-- The complex-to-complex executor in one direction, on the data from address `base` on (`stock_fft_executor`, stock.h:441-484;
`fftw_executor` with one direction, fftw.h:218-229, 272-285). -/
def execC2C (w : Nat) (T : Int × Int → List α → Res (List α)) (b : Box) (d : Fin 3) (base : Int) (mem : List α) : Res (List α) :=
  let dist := if d = b.order 0 then b.size d else 1
  let block := b.osize 0 * b.osize 1
  runInPlace T (b.size d).toNat (lineStride b d) (laneGroups w b d base dist block base dist block) mem

/-- `stock_fft_executor_r2c::forward` (stock.h:558-583), `fftw_executor_r2c::forward` (fftw.h:424-456). -/
def execR2C (w : Nat) (T : Int × Int → List α → Res (List β)) (b : Box) (d : Fin 3) (rbase cbase : Int) (src : List α) (dst : List β) :
    Res (List β) :=
  let n := b.size d
  let rdist := if d = b.order 0 then n else 1
  let cdist := if d = b.order 0 then n / 2 + 1 else 1
  runOut T n.toNat ((n + 2) / 2).toNat (lineStride b d) src
    (laneGroups w b d rbase rdist (b.osize 0 * b.osize 1) cbase cdist (b.osize 0 * (b.osize 1 / 2 + 1))) dst

/-- `stock_fft_executor_r2c::backward` (stock.h:584-598), `fftw_executor_r2c::backward` (fftw.h:450-465). -/
def execC2R (w : Nat) (T : Int × Int → List α → Res (List β)) (b : Box) (d : Fin 3) (cbase rbase : Int) (src : List α) (dst : List β) :
    Res (List β) :=
  let n := b.size d
  let rdist := if d = b.order 0 then n else 1
  let cdist := if d = b.order 0 then n / 2 + 1 else 1
  runOut T ((n + 2) / 2).toNat n.toNat (lineStride b d) src
    (laneGroups w b d cbase cdist (b.osize 0 * (b.osize 1 / 2 + 1)) rbase rdist (b.osize 0 * b.osize 1)) dst

end Verif
