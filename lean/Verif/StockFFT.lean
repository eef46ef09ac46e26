import Verif.StockTree
import Mathlib.Data.Nat.Cast.Defs

/-!
# The algorithms of the stock FFT

`/repo/include/stock_fft/heffte_stock_algos.h` is cited as `algos.h`.

* The type `K` of the numbers only has its operations.  It is `ℂ` for one lane (exact arithmetic),
  `Flt` of `Rounding.lean` in floating point arithmetic and `Simd.Pack` for `Complex<F,L>`, see `Simd.lean`; `Props/Simd.lean` shows that a pack does the same in each of its lanes.
  `x.fmadd(y, z)` is written `x * y + z`, `__mul_i` is the product with the constant `i`; `Props/Simd.lean` has these equations of packs.
* A pointer is a memory (a function on addresses) and an offset.  The input, the output and the workspaces of the nodes
  never overlap: the executor passes two separate vectors and every node owns its workspace.
* The twiddle factors are a parameter, the instance of the code is `complexTw` in `StockComplex.lean`.
-/

namespace Verif.Stock
variable {K : Type}

/-- A memory with elements of `K`. -/
abbrev Arr (K : Type) := Nat → K

/-- `y[a] = v`. -/
def st (y : Arr K) (a : Nat) (v : K) : Arr K := fun i => if i = a then v else y i

/-- `for(size_t k = lo; k < lo + cnt; k++)`. -/
def forRange {σ : Type} (lo : Nat) : Nat → (Nat → σ → σ) → σ → σ
  | 0, _, s => s
  | n + 1, f, s => f (lo + n) (forRange lo n f s)

/-- The constants of the algorithms: `omega::get(power, N, dir)` (algos.h:35-40) with `true` for the forward direction, the
imaginary unit of `__mul_i` and the two constants of `pow3_FFT` (algos.h:446-447). -/
structure Tw (K : Type) where
  om : Bool → Nat → Nat → K
  i : K
  plus120 : K
  minus120 : K

variable [Zero K] [One K] [Add K] [Sub K] [Mul K] [Neg K] [Div K] [NatCast K] (tw : Tw K)

/-- `DFT_helper` (algos.h:91-129). -/
def dftHelper (dir : Bool) (N : Nat) (x : Arr K) (xo si : Nat) (y : Arr K) (yo so : Nat) : Arr K :=
  if N = 1 then st y yo (x xo)
  else
    let w0 := tw.om dir 1 N
    let y := st y yo (forRange 1 (N - 1) (fun n tmp => tmp + x (xo + n * si)) (x xo))
    (forRange 1 (N - 1) (fun k (s : Arr K × K × K) =>
      let r := forRange 1 (N - 1) (fun n (r : K × K) => (r.2 * x (xo + n * si) + r.1, r.2 * s.2.1)) (x xo, s.2.2)
      let wk := s.2.1 * w0
      (st s.1 (yo + k * so) r.1, wk, wk)) (y, w0, w0)).1

/-- `pow2_FFT_helper` (algos.h:139-171).  For `N < 2` the recursion of the code does not end; it is only called for powers of 2. -/
def pow2Helper (dir : Bool) (N : Nat) (x : Arr K) (xo si : Nat) (y : Arr K) (yo so : Nat) : Arr K :=
  if N = 2 then
    let y := st y yo (x xo + x (xo + si))
    st y (yo + so) (x xo - x (xo + si))
  else if _h : N < 2 then y
  else
    let m := N / 2
    let y := pow2Helper dir m x xo (si * 2) y yo so
    let y := pow2Helper dir m x (xo + si) (si * 2) y (yo + so * m) so
    let w1 := tw.om dir 1 N
    let yj := y yo
    let y := st y yo (y yo + y (yo + m * so))
    let y := st y (yo + m * so) (yj - y (yo + m * so))
    (forRange 1 (m - 1) (fun j (s : Arr K × K) =>
      let y := s.1
      let wj := s.2
      let yj := y (yo + j * so)
      let y := st y (yo + j * so) (yj + wj * y (yo + (j + m) * so))
      let y := st y (yo + (j + m) * so) (yj - wj * y (yo + (j + m) * so))
      (y, wj * w1)) (y, w1)).1
termination_by N
decreasing_by all_goals omega

/-- The four assignments of the base case and of the first step of `pow4_FFT_helper` (algos.h:185-195, 223-226, 244-247).  The first step
of the backward transform adds from left to right (`flat`), the others add the two odd terms first. -/
def butterfly4 (dir flat : Bool) (y : Arr K) (k0 k1 k2 k3 : Nat) (a0 a1 a2 a3 : K) : Arr K :=
  let s := if dir then - (tw.i * (a1 - a3)) else tw.i * (a1 - a3)
  let t := if dir then tw.i * (a1 - a3) else - (tw.i * (a1 - a3))
  let y := st y k0 (if flat then a0 + a2 + a1 + a3 else a0 + a2 + (a1 + a3))
  let y := st y k1 (a0 - a2 + s)
  let y := st y k2 (if flat then a0 + a2 - a1 - a3 else a0 + a2 - (a1 + a3))
  st y k3 (a0 - a2 + t)

/-- `pow4_FFT_helper` (algos.h:182-264). -/
def pow4Helper (dir : Bool) (N : Nat) (x : Arr K) (xo si : Nat) (y : Arr K) (yo so : Nat) : Arr K :=
  if N = 4 then
    butterfly4 tw dir false y yo (yo + 1 * so) (yo + 2 * so) (yo + 3 * so) (x xo) (x (xo + si)) (x (xo + 2 * si)) (x (xo + 3 * si))
  else if _h : N < 4 then y
  else
    let m := N / 4
    let y := pow4Helper dir m x xo (si * 4) y yo so
    let y := pow4Helper dir m x (xo + si) (si * 4) y (yo + so * m) so
    let y := pow4Helper dir m x (xo + 2 * si) (si * 4) y (yo + 2 * so * m) so
    let y := pow4Helper dir m x (xo + 3 * si) (si * 4) y (yo + 3 * so * m) so
    let w1 := tw.om dir 1 N
    let w2 := w1 * w1
    let w3 := w2 * w1
    let y := butterfly4 tw dir (!dir) y yo (yo + m * so) (yo + 2 * m * so) (yo + 3 * m * so)
      (y yo) (y (yo + m * so)) (y (yo + 2 * m * so)) (y (yo + 3 * m * so))
    (forRange 1 (m - 1) (fun k (s : Arr K × K × K × K) =>
      let y := s.1
      let wk1 := s.2.1
      let wk2 := s.2.2.1
      let wk3 := s.2.2.2
      let k0 := yo + k * so
      let k1 := yo + (k + m) * so
      let k2 := yo + (k + 2 * m) * so
      let k3 := yo + (k + 3 * m) * so
      let a0 := y k0
      let a1 := y k1
      let a2 := y k2
      let a3 := y k3
      let up := tw.i * (wk3 * a3 - wk1 * a1)
      let down := tw.i * (wk1 * a1 - wk3 * a3)
      let y := st y k0 (wk2 * a2 + a0 + (wk1 * a1 + wk3 * a3))
      let y := st y k1 (wk2 * (- a2) + a0 + if dir then up else down)
      let y := st y k2 (wk2 * a2 + a0 - (wk1 * a1 + wk3 * a3))
      let y := st y k3 (wk2 * (- a2) + a0 + if dir then down else up)
      (y, wk1 * w1, wk2 * w2, wk3 * w3)) (y, w1, w2, w3)).1
termination_by N
decreasing_by all_goals omega

/-- `pow3_FFT_helper` (algos.h:385-440). -/
def pow3Helper (dir : Bool) (p q : K) (N : Nat) (x : Arr K) (xo si : Nat) (y : Arr K) (yo so : Nat) : Arr K :=
  if N = 3 then
    let y := st y yo (x xo + x (xo + si) + x (xo + 2 * si))
    let y := st y (yo + so) (x xo + p * x (xo + si) + q * x (xo + 2 * si))
    st y (yo + 2 * so) (x xo + q * x (xo + si) + p * x (xo + 2 * si))
  else if _h : N < 3 then y
  else
    let m := N / 3
    let y := pow3Helper dir p q m x xo (si * 3) y yo so
    let y := pow3Helper dir p q m x (xo + si) (si * 3) y (yo + m * so) so
    let y := pow3Helper dir p q m x (xo + 2 * si) (si * 3) y (yo + 2 * m * so) so
    let w1 := tw.om dir 1 N
    let w2 := w1 * w1
    let a0 := y yo
    let a1 := y (yo + m * so)
    let a2 := y (yo + 2 * m * so)
    let y := st y yo (a2 + a1 + a0)
    let y := st y (yo + m * so) (q * a2 + (p * a1 + a0))
    let y := st y (yo + 2 * m * so) (p * a2 + (q * a1 + a0))
    (forRange 1 (m - 1) (fun k (s : Arr K × K × K) =>
      let y := s.1
      let wk1 := s.2.1
      let wk2 := s.2.2
      let k1 := yo + k * so
      let k2 := yo + (m + k) * so
      let k3 := yo + (2 * m + k) * so
      let a0 := y k1
      let a1 := y k2
      let a2 := y k3
      let y := st y k1 (wk2 * a2 + (wk1 * a1 + a0))
      let y := st y k2 (wk2 * (q * a2) + (wk1 * (p * a1) + a0))
      let y := st y k3 (wk2 * (p * a2) + (wk1 * (q * a1) + a0))
      (y, wk1 * w1, wk2 * w2)) (y, w1, w2)).1
termination_by N
decreasing_by all_goals omega

/-- The output and the workspaces of the nodes, indexed by the position of the node in the array of nodes. -/
abbrev Out (K : Type) := Arr K × (Nat → Arr K)

/-- Replace the workspace of the node `n`. -/
def setWs (W : Nat → Arr K) (n : Nat) (z : Arr K) : Nat → Arr K := fun m => if m = n then z else W m

/-- `composite_FFT` (algos.h:275-312), the transforms of the children `left` and `right` are parameters. -/
def compositeFFT (N N1 N2 n : Nat) (left right : Arr K → Nat → Nat → Arr K → Nat → Nat → (Nat → Arr K) → Out K) (dir : Bool)
    (x : Arr K) (xo si : Nat) (y : Arr K) (yo so : Nat) (W : Nat → Arr K) : Out K :=
  let w1 := tw.om dir 1 N
  let s := forRange 0 N1 (fun j1 (s : Arr K × K × (Nat → Arr K)) =>
    let wj1 := s.2.1
    let o := right x (xo + j1 * si) (N1 * si) s.1 (N2 * j1) 1 s.2.2
    let z := if 0 < j1 then
        (forRange 1 (N2 - 1) (fun k2 (t : Arr K × K) => (st t.1 (j1 * N2 + k2) (t.1 (j1 * N2 + k2) * t.2), t.2 * wj1)) (o.1, wj1)).1
      else o.1
    (z, wj1 * w1, o.2)) (W n, 1, W)
  let W := setWs s.2.2 n s.1
  forRange 0 N2 (fun k2 (o : Out K) => left s.1 k2 N2 o.1 (yo + k2 * so) (N2 * so) o.2) (y, W)

/-- `rader_FFT` (algos.h:330-381), the transform of the child is a parameter. -/
def raderFFT (p a ainv n : Nat) (sub : Bool → Arr K → Nat → Nat → Arr K → Nat → Nat → (Nat → Arr K) → Out K) (dir : Bool)
    (x : Arr K) (xo si : Nat) (y : Arr K) (yo so : Nat) (W : Nat → Arr K) : Out K :=
  let s := forRange 0 (p - 1) (fun k (s : Arr K × K × Nat) =>
    let y := st s.1 (yo + k * so) (x (xo + s.2.2 * si))
    (y, s.2.1 + y (yo + k * so), s.2.2 * ainv % p)) (y, x xo, 1)
  let y0 := s.2.1
  let o := sub dir s.1 yo so (W n) 0 1 W
  let z := o.1
  let y := forRange 0 (p - 1) (fun m (y : Arr K) =>
    let c := forRange 1 (p - 1 - 1) (fun k (c : K × Nat) =>
      (c.1 + tw.om dir (p * (k * m + c.2) - c.2) (p * (p - 1)), c.2 * a % p)) (tw.om dir 1 p, a)
    st y (yo + m * so) (z m * c.1)) s.1
  let o := sub (!dir) y yo so z 0 1 o.2
  let z := o.1
  let y := st y yo y0
  let r := forRange 0 (p - 1) (fun m (r : Arr K × Nat) =>
    (st r.1 (yo + r.2 * so) (x xo + z m / ((p - 1 : Nat) : K)), r.2 * a % p)) (y, 1)
  (r.1, setWs o.2 n z)

/-- `Fourier_Transform::operator()` (algos.h:58-68) at the node `n` of the array of nodes.  A leaf of type `composite` or
`rader` does not exist. -/
def Tree.fft : Tree → Nat → Bool → Arr K → Nat → Nat → Arr K → Nat → Nat → (Nat → Arr K) → Out K
  | .leaf .pow2 N, _, dir, x, xo, si, y, yo, so, W => (pow2Helper tw dir N x xo si y yo so, W)
  | .leaf .pow3 N, _, dir, x, xo, si, y, yo, so, W =>
    (if dir then pow3Helper tw dir tw.plus120 tw.minus120 N x xo si y yo so
     else pow3Helper tw dir tw.minus120 tw.plus120 N x xo si y yo so, W)
  | .leaf .pow4 N, _, dir, x, xo, si, y, yo, so, W => (pow4Helper tw dir N x xo si y yo so, W)
  | .leaf .discrete N, _, dir, x, xo, si, y, yo, so, W => (dftHelper tw dir N x xo si y yo so, W)
  | .leaf _ _, _, _, _, _, _, y, _, _, W => (y, W)
  | .composite N l r, n, dir, x, xo, si, y, yo, so, W =>
    compositeFFT tw N l.sz r.sz n (l.fft (n + 1) dir) (r.fft (n + (1 + l.count)) dir) dir x xo si y yo so W
  | .rader p a ainv l, n, dir, x, xo, si, y, yo, so, W => raderFFT tw p a ainv n (l.fft (n + 1)) dir x xo si y yo so W

/-- One transform of `plan_stock_fft::execute` (heffte_backend_stock.h:410-430) on the vector `v`: the vector is copied into
`inp`, transformed into `out` and `out` is copied back.  `out0` and `W` are what the memory holds before the call. -/
def stockFFT (N : Nat) (dir : Bool) (v : List K) (out0 : Arr K) (W : Nat → Arr K) : Res (List K) := do
  let nodes ← stockPlan N
  if v.length ≠ N then .error .ub
  else match loadTree nodes nodes.length 0 with
    | none => .error .ub
    | some t =>
      let out := (t.fft tw 0 dir (fun n => v.getD n 0) 0 1 out0 0 1 W).1
      .ok ((List.range N).map out)

end Verif.Stock
