import Verif.Exec
import Verif.StockComplex

/-!
# The transform of one line in the stock executors, and the two and three dimensional executors of FFTW

`/repo/include/heffte_backend_stock.h` is cited as `stock.h`, `/repo/include/heffte_backend_fftw.h` as `fftw.h`.
-/

namespace Verif
open Stock

/-! ## Stock -/

/-- What the work memory of a stock plan may hold when a line is transformed: the output array and the scratch arrays. -/
structure Scratch where
  out : Arr ℂ
  ws : Nat → Arr ℂ

/-- One line of the complex plan (stock.h:267-281, 414-427). -/
noncomputable def stockLine (junk : Int × Int → Scratch) (N : Nat) (fwd : Bool) (s : Int × Int) (v : List ℂ) : Res (List ℂ) :=
  stockFFT complexTw N fwd v (junk s).out (junk s).ws

/-- One line of the real-to-complex plan (stock.h:195-209, 362-379): zero imaginary parts, forward transform, and the first
`(N + 2) / 2` entries are kept. -/
noncomputable def stockR2C (junk : Int × Int → Scratch) (N : Nat) (s : Int × Int) (v : List ℝ) : Res (List ℂ) := do
  let out ← stockFFT complexTw N true (v.map fun x => (⟨x, 0⟩ : ℂ)) (junk s).out (junk s).ws
  return out.take ((N + 2) / 2)

/-- The body of the loop in the complex-to-real plan (stock.h:149-153, 342-346). -/
noncomputable def c2rStep (N : Nat) (v : List ℂ) (i : Nat) (a : Arr ℂ) : Arr ℂ :=
  let a := st a i (v.getD i 0)
  st a (N - i) ⟨(a i).re, -(a i).im⟩

/-- The input array of the complex-to-real plan (stock.h:147-153, 340-346); `inp` is what it holds before. -/
noncomputable def c2rInput (N : Nat) (v : List ℂ) (inp : Arr ℂ) : Arr ℂ :=
  forRange 1 ((N + 2) / 2 - 1) (c2rStep N v) (st inp 0 (v.getD 0 0))

/-- One line of the complex-to-real plan (stock.h:146-161, 337-354).  The line has the `(N + 2) / 2` entries that the code reads. -/
noncomputable def stockC2R (junk : Int × Int → Scratch) (inp : Int × Int → Arr ℂ) (N : Nat) (s : Int × Int) (v : List ℂ) : Res (List ℝ) :=
  if v.length ≠ (N + 2) / 2 then .error .ub
  else do
    let out ← stockFFT complexTw N false ((List.range N).map (c2rInput N v (inp s))) (junk s).out (junk s).ws
    return out.map fun z => z.re

variable {α β : Type}

/-- The complex executor on real input (stock.h:499-502, 509-512; fftw.h:304-307): copy with `cast`, then the transform. -/
def execFromReal (cast : β → α) (run : List α → Res (List α)) (total : Int) (rbase cbase : Int) (src : List β) (dst : List α) :
    Res (List α) := do
  run (← writeAll ((loop total).map fun i => (cbase + i, (rd src (rbase + i)).map cast)) dst)

/-- The complex executor with real output (stock.h:504-507, 514-517; fftw.h:309-312): the transform in place on the input, then the real
parts are copied.  The result has both arrays. -/
def execToReal (re : α → β) (run : List α → Res (List α)) (total : Int) (cbase rbase : Int) (src : List α) (dst : List β) :
    Res (List α × List β) := do
  let src' ← run src
  return (src', ← writeAll ((loop total).map fun i => (rbase + i, (rd src' (cbase + i)).map re)) dst)

/-! ## FFTW

The advanced interface of FFTW with rank 2 transforms, for each `p < howmany`, the matrix whose entry `(j0, j1)`, `j0 < n0`, `j1 < n1`, is
at `p * dist + stride * (j0 * e1 + j1)`; `e1` is `embed[1]`, or `n1` without `embed`.  The transform of a matrix is the
transform of its rows and then of its columns.  Rank 3 with `stride = 1` is similar. -/

/-- Transform the lines with the given first entries, one after the other. -/
def linePass (T : Int × Int → List α → Res (List α)) (n stride : Int) (starts : List Int) (mem : List α) : Res (List α) :=
  runInPlace T n.toNat stride (starts.map fun s => [(s, s)]) mem

/-- `fftw_plan_many_dft` with rank 2 (fftw.h:124-140). -/
def fftwRank2 (T : Nat → Int × Int → List α → Res (List α)) (n0 n1 e1 howmany stride dist base : Int) (mem : List α) : Res (List α) := do
  let mem ← linePass (T n1.toNat) n1 stride ((loop howmany).flatMap fun p => (loop n0).map fun j => base + p * dist + stride * (j * e1)) mem
  linePass (T n0.toNat) n0 (stride * e1) ((loop howmany).flatMap fun p => (loop n1).map fun j => base + p * dist + stride * j) mem

/-- `fftw_plan_many_dft` with rank 3, one transform, no embedding (fftw.h:142-146). -/
def fftwRank3 (T : Nat → Int × Int → List α → Res (List α)) (n0 n1 n2 base : Int) (mem : List α) : Res (List α) := do
  let mem ← linePass (T n2.toNat) n2 1 ((loop n0).flatMap fun i => (loop n1).map fun j => base + (i * n1 + j) * n2) mem
  let mem ← linePass (T n1.toNat) n1 n2 ((loop n0).flatMap fun i => (loop n2).map fun k => base + i * n1 * n2 + k) mem
  linePass (T n0.toNat) n0 (n1 * n2) ((loop n1).flatMap fun j => (loop n2).map fun k => base + j * n2 + k) mem

/-- `fftw_executor` with two directions (fftw.h:230-253, and `fftw_r2r_executor` fftw.h:575-598). -/
def fftwExec2 (T : Nat → Int × Int → List α → Res (List α)) (b : Box) (dir1 dir2 : Fin 3) (base : Int) (mem : List α) : Res (List α) :=
  let size := b.size (min dir1 dir2)
  let size2 := b.size (max dir1 dir2)
  let o1 := b.findOrder dir1
  let o2 := b.findOrder dir2
  if min o1 o2 = 0 ∧ max o1 o2 = 1 then
    fftwRank2 T size2 size size (b.size 2) 1 (size * size2) base mem
  else if min o1 o2 = 1 ∧ max o1 o2 = 2 then
    fftwRank2 T size2 size size (b.size 0) (b.size 0) 1 base mem
  else
    fftwRank2 T size2 size (b.size 1 * b.size 0) (b.size 1) 1 size base mem

/-- `fftw_executor` with three directions (fftw.h:254-262). -/
def fftwExec3 (T : Nat → Int × Int → List α → Res (List α)) (b : Box) (base : Int) (mem : List α) : Res (List α) :=
  fftwRank3 T (b.size 2) (b.size 1) (b.size 0) base mem

end Verif
