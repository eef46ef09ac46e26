import Verif.StockTreeLemmas
import Verif.StockFFT

/-!
# The algorithms of the stock FFT with a counter

`/repo/include/stock_fft/heffte_stock_algos.h` is cited as `algos.h`.

The programs of `StockFFT.lean` once more, every operation of complex numbers that the code spells out advances a counter.  `arith` is the
price of one operation (`+`, `-`, `*`, `/`, negation, `__mul_i`, `__mul_neg_i`; `fmadd` and `fmsub` are two), `trig` that of one call of `omega::get`
(a sine and a cosine).  The arithmetic of indexes and the moving of data are free.  `CostLemmas.lean` shows that the values are those of `StockFFT.lean`,
so it is the same program.
-/

namespace Verif.Stock

/-- A value and what it has cost. -/
structure Tick (α : Type) where
  val : α
  cost : Nat

instance : Monad Tick where
  pure a := ⟨a, 0⟩
  bind x f := ⟨(f x.val).val, x.cost + (f x.val).cost⟩

/-- The prices. -/
structure Price where
  arith : Nat
  trig : Nat

variable {K : Type}

/-- `for(size_t k = lo; k < lo + cnt; k++)`. -/
def forTick {σ : Type} (lo : Nat) : Nat → (Nat → σ → Tick σ) → σ → Tick σ
  | 0, _, s => pure s
  | n + 1, f, s => do f (lo + n) (← forTick lo n f s)

variable [Zero K] [One K] [Add K] [Sub K] [Mul K] [Neg K] [Div K] [NatCast K] (tw : Tw K) (c : Price)

def addT (a b : K) : Tick K := ⟨a + b, c.arith⟩
def subT (a b : K) : Tick K := ⟨a - b, c.arith⟩
def mulT (a b : K) : Tick K := ⟨a * b, c.arith⟩
def negT (a : K) : Tick K := ⟨-a, c.arith⟩
/-- `z[m]/(static_cast<double>(p-1))`. -/
def divT (a : K) (n : Nat) : Tick K := ⟨a / (n : K), c.arith⟩
/-- `__mul_i` and `__mul_neg_i`. -/
def mulIT (a : K) : Tick K := ⟨tw.i * a, c.arith⟩
def mulNegIT (a : K) : Tick K := ⟨-(tw.i * a), c.arith⟩
/-- `a.fmadd(x, b)` and `a.fmsub(x, b)`. -/
def fmaddT (a x b : K) : Tick K := ⟨a * x + b, 2 * c.arith⟩
def fmsubT (a x b : K) : Tick K := ⟨a * x - b, 2 * c.arith⟩
/-- `omega::get` (algos.h:35-40). -/
def omT (dir : Bool) (power N : Nat) : Tick K := ⟨tw.om dir power N, c.trig⟩

/-- `DFT_helper` (algos.h:91-129). -/
def dftT (dir : Bool) (N : Nat) (x : Arr K) (xo si : Nat) (y : Arr K) (yo so : Nat) : Tick (Arr K) :=
  if N = 1 then pure (st y yo (x xo))
  else do
    let w0 ← omT tw c dir 1 N
    let tmp ← forTick 1 (N - 1) (fun n tmp => addT c tmp (x (xo + n * si))) (x xo)
    let y := st y yo tmp
    let s ← forTick 1 (N - 1) (fun k (s : Arr K × K × K) => do
      let r ← forTick 1 (N - 1) (fun n (r : K × K) => do
        let t ← fmaddT c r.2 (x (xo + n * si)) r.1
        let w ← mulT c r.2 s.2.1
        pure (t, w)) (x xo, s.2.2)
      let wk ← mulT c s.2.1 w0
      pure (st s.1 (yo + k * so) r.1, wk, wk)) (y, w0, w0)
    pure s.1

/-- `pow2_FFT_helper` (algos.h:139-171). -/
def pow2T (dir : Bool) (N : Nat) (x : Arr K) (xo si : Nat) (y : Arr K) (yo so : Nat) : Tick (Arr K) :=
  if N = 2 then do
    let u ← addT c (x xo) (x (xo + si))
    let y := st y yo u
    let v ← subT c (x xo) (x (xo + si))
    pure (st y (yo + so) v)
  else if _h : N < 2 then pure y
  else do
    let m := N / 2
    let y ← pow2T dir m x xo (si * 2) y yo so
    let y ← pow2T dir m x (xo + si) (si * 2) y (yo + so * m) so
    let w1 ← omT tw c dir 1 N
    let yj := y yo
    let u ← addT c (y yo) (y (yo + m * so))
    let y := st y yo u
    let v ← subT c yj (y (yo + m * so))
    let y := st y (yo + m * so) v
    let s ← forTick 1 (m - 1) (fun j (s : Arr K × K) => do
      let y := s.1
      let wj := s.2
      let yj := y (yo + j * so)
      let u ← addT c yj (← mulT c wj (y (yo + (j + m) * so)))
      let y := st y (yo + j * so) u
      let v ← subT c yj (← mulT c wj (y (yo + (j + m) * so)))
      let y := st y (yo + (j + m) * so) v
      let w ← mulT c wj w1
      pure (y, w)) (y, w1)
    pure s.1
termination_by N
decreasing_by all_goals omega

/-- The four assignments of the base case and of the first step of `pow4_FFT_helper` (algos.h:185-195, 223-226, 244-247). -/
def butterflyT (dir flat : Bool) (y : Arr K) (k0 k1 k2 k3 : Nat) (a0 a1 a2 a3 : K) : Tick (Arr K) := do
  let u0 ← if flat then do addT c (← addT c (← addT c a0 a2) a1) a3 else do addT c (← addT c a0 a2) (← addT c a1 a3)
  let y := st y k0 u0
  let u1 ← do
    let d ← subT c a0 a2
    let e ← subT c a1 a3
    addT c d (← if dir then mulNegIT tw c e else mulIT tw c e)
  let y := st y k1 u1
  let u2 ← if flat then do subT c (← subT c (← addT c a0 a2) a1) a3 else do subT c (← addT c a0 a2) (← addT c a1 a3)
  let y := st y k2 u2
  let u3 ← do
    let d ← subT c a0 a2
    let e ← subT c a1 a3
    addT c d (← if dir then mulIT tw c e else mulNegIT tw c e)
  pure (st y k3 u3)

/-- `pow4_FFT_helper` (algos.h:182-264). -/
def pow4T (dir : Bool) (N : Nat) (x : Arr K) (xo si : Nat) (y : Arr K) (yo so : Nat) : Tick (Arr K) :=
  if N = 4 then
    butterflyT tw c dir false y yo (yo + 1 * so) (yo + 2 * so) (yo + 3 * so) (x xo) (x (xo + si)) (x (xo + 2 * si)) (x (xo + 3 * si))
  else if _h : N < 4 then pure y
  else do
    let m := N / 4
    let y ← pow4T dir m x xo (si * 4) y yo so
    let y ← pow4T dir m x (xo + si) (si * 4) y (yo + so * m) so
    let y ← pow4T dir m x (xo + 2 * si) (si * 4) y (yo + 2 * so * m) so
    let y ← pow4T dir m x (xo + 3 * si) (si * 4) y (yo + 3 * so * m) so
    let w1 ← omT tw c dir 1 N
    let w2 ← mulT c w1 w1
    let w3 ← mulT c w2 w1
    let y ← butterflyT tw c dir (!dir) y yo (yo + m * so) (yo + 2 * m * so) (yo + 3 * m * so)
      (y yo) (y (yo + m * so)) (y (yo + 2 * m * so)) (y (yo + 3 * m * so))
    let s ← forTick 1 (m - 1) (fun k (s : Arr K × K × K × K) => do
      let y := s.1
      let wk1 := s.2.1
      let wk2 := s.2.2.1
      let wk3 := s.2.2.2
      let k0 := yo + k * so
      let k1 := yo + (k + m) * so
      let k2 := yo + (k + 2 * m) * so
      let k3 := yo + (k + 3 * m) * so
      let a0 := y k0
      let a1 := y k1
      let a2 := y k2
      let a3 := y k3
      let u0 ← addT c (← fmaddT c wk2 a2 a0) (← fmaddT c wk1 a1 (← mulT c wk3 a3))
      let y := st y k0 u0
      let u1 ← addT c (← fmaddT c wk2 (← negT c a2) a0)
        (← if dir then do mulIT tw c (← fmsubT c wk3 a3 (← mulT c wk1 a1)) else do mulIT tw c (← fmsubT c wk1 a1 (← mulT c wk3 a3)))
      let y := st y k1 u1
      let u2 ← subT c (← fmaddT c wk2 a2 a0) (← fmaddT c wk1 a1 (← mulT c wk3 a3))
      let y := st y k2 u2
      let u3 ← addT c (← fmaddT c wk2 (← negT c a2) a0)
        (← if dir then do mulIT tw c (← fmsubT c wk1 a1 (← mulT c wk3 a3)) else do mulIT tw c (← fmsubT c wk3 a3 (← mulT c wk1 a1)))
      let y := st y k3 u3
      let v1 ← mulT c wk1 w1
      let v2 ← mulT c wk2 w2
      let v3 ← mulT c wk3 w3
      pure (y, v1, v2, v3)) (y, w1, w2, w3)
    pure s.1
termination_by N
decreasing_by all_goals omega

/-- `pow3_FFT_helper` (algos.h:385-440). -/
def pow3T (dir : Bool) (p q : K) (N : Nat) (x : Arr K) (xo si : Nat) (y : Arr K) (yo so : Nat) : Tick (Arr K) :=
  if N = 3 then do
    let u0 ← addT c (← addT c (x xo) (x (xo + si))) (x (xo + 2 * si))
    let y := st y yo u0
    let u1 ← addT c (← addT c (x xo) (← mulT c p (x (xo + si)))) (← mulT c q (x (xo + 2 * si)))
    let y := st y (yo + so) u1
    let u2 ← addT c (← addT c (x xo) (← mulT c q (x (xo + si)))) (← mulT c p (x (xo + 2 * si)))
    pure (st y (yo + 2 * so) u2)
  else if _h : N < 3 then pure y
  else do
    let m := N / 3
    let y ← pow3T dir p q m x xo (si * 3) y yo so
    let y ← pow3T dir p q m x (xo + si) (si * 3) y (yo + m * so) so
    let y ← pow3T dir p q m x (xo + 2 * si) (si * 3) y (yo + 2 * m * so) so
    let w1 ← omT tw c dir 1 N
    let w2 ← mulT c w1 w1
    let a0 := y yo
    let a1 := y (yo + m * so)
    let a2 := y (yo + 2 * m * so)
    let u0 ← addT c (← addT c a2 a1) a0
    let y := st y yo u0
    let u1 ← fmaddT c q a2 (← fmaddT c p a1 a0)
    let y := st y (yo + m * so) u1
    let u2 ← fmaddT c p a2 (← fmaddT c q a1 a0)
    let y := st y (yo + 2 * m * so) u2
    let s ← forTick 1 (m - 1) (fun k (s : Arr K × K × K) => do
      let y := s.1
      let wk1 := s.2.1
      let wk2 := s.2.2
      let k1 := yo + k * so
      let k2 := yo + (m + k) * so
      let k3 := yo + (2 * m + k) * so
      let a0 := y k1
      let a1 := y k2
      let a2 := y k3
      let u0 ← fmaddT c wk2 a2 (← fmaddT c wk1 a1 a0)
      let y := st y k1 u0
      let u1 ← fmaddT c wk2 (← mulT c q a2) (← fmaddT c wk1 (← mulT c p a1) a0)
      let y := st y k2 u1
      let u2 ← fmaddT c wk2 (← mulT c p a2) (← fmaddT c wk1 (← mulT c q a1) a0)
      let y := st y k3 u2
      let v1 ← mulT c wk1 w1
      let v2 ← mulT c wk2 w2
      pure (y, v1, v2)) (y, w1, w2)
    pure s.1
termination_by N
decreasing_by all_goals omega

/-- `composite_FFT` (algos.h:275-312). -/
def compositeT (N N1 N2 n : Nat) (left right : Arr K → Nat → Nat → Arr K → Nat → Nat → (Nat → Arr K) → Tick (Out K)) (dir : Bool)
    (x : Arr K) (xo si : Nat) (y : Arr K) (yo so : Nat) (W : Nat → Arr K) : Tick (Out K) := do
  let w1 ← omT tw c dir 1 N
  let s ← forTick 0 N1 (fun j1 (s : Arr K × K × (Nat → Arr K)) => do
    let wj1 := s.2.1
    let o ← right x (xo + j1 * si) (N1 * si) s.1 (N2 * j1) 1 s.2.2
    let z ← (if 0 < j1 then do
        let t ← forTick 1 (N2 - 1) (fun k2 (t : Arr K × K) => do
          let u ← mulT c (t.1 (j1 * N2 + k2)) t.2
          let w ← mulT c t.2 wj1
          pure (st t.1 (j1 * N2 + k2) u, w)) (o.1, wj1)
        pure t.1
      else pure o.1)
    let w ← mulT c wj1 w1
    pure (z, w, o.2)) (W n, 1, W)
  let W := setWs s.2.2 n s.1
  forTick 0 N2 (fun k2 (o : Out K) => left s.1 k2 N2 o.1 (yo + k2 * so) (N2 * so) o.2) (y, W)

/-- `rader_FFT` (algos.h:330-381). -/
def raderT (p a ainv n : Nat) (sub : Bool → Arr K → Nat → Nat → Arr K → Nat → Nat → (Nat → Arr K) → Tick (Out K)) (dir : Bool)
    (x : Arr K) (xo si : Nat) (y : Arr K) (yo so : Nat) (W : Nat → Arr K) : Tick (Out K) := do
  let s ← forTick 0 (p - 1) (fun k (s : Arr K × K × Nat) => do
    let y := st s.1 (yo + k * so) (x (xo + s.2.2 * si))
    let y0 ← addT c s.2.1 (y (yo + k * so))
    pure (y, y0, s.2.2 * ainv % p)) (y, x xo, 1)
  let y0 := s.2.1
  let o ← sub dir s.1 yo so (W n) 0 1 W
  let z := o.1
  let y ← forTick 0 (p - 1) (fun m (y : Arr K) => do
    let e ← omT tw c dir 1 p
    let cm ← forTick 1 (p - 1 - 1) (fun k (cm : K × Nat) => do
      let u ← addT c cm.1 (← omT tw c dir (p * (k * m + cm.2) - cm.2) (p * (p - 1)))
      pure (u, cm.2 * a % p)) (e, a)
    let u ← mulT c (z m) cm.1
    pure (st y (yo + m * so) u)) s.1
  let o ← sub (!dir) y yo so z 0 1 o.2
  let z := o.1
  let y := st y yo y0
  let r ← forTick 0 (p - 1) (fun m (r : Arr K × Nat) => do
    let u ← addT c (x xo) (← divT c (z m) (p - 1))
    pure (st r.1 (yo + r.2 * so) u, r.2 * a % p)) (y, 1)
  pure (r.1, setWs o.2 n z)

/-- `Fourier_Transform::operator()` (algos.h:58-68). -/
def Tree.fftT : Tree → Nat → Bool → Arr K → Nat → Nat → Arr K → Nat → Nat → (Nat → Arr K) → Tick (Out K)
  | .leaf .pow2 N, _, dir, x, xo, si, y, yo, so, W => do pure (← pow2T tw c dir N x xo si y yo so, W)
  | .leaf .pow3 N, _, dir, x, xo, si, y, yo, so, W => do
    let y ← (if dir then pow3T tw c dir tw.plus120 tw.minus120 N x xo si y yo so
      else pow3T tw c dir tw.minus120 tw.plus120 N x xo si y yo so)
    pure (y, W)
  | .leaf .pow4 N, _, dir, x, xo, si, y, yo, so, W => do pure (← pow4T tw c dir N x xo si y yo so, W)
  | .leaf .discrete N, _, dir, x, xo, si, y, yo, so, W => do pure (← dftT tw c dir N x xo si y yo so, W)
  | .leaf _ _, _, _, _, _, _, y, _, _, W => pure (y, W)
  | .composite N l r, n, dir, x, xo, si, y, yo, so, W =>
    compositeT tw c N l.sz r.sz n (l.fftT (n + 1) dir) (r.fftT (n + (1 + l.count)) dir) dir x xo si y yo so W
  | .rader p a ainv l, n, dir, x, xo, si, y, yo, so, W => raderT tw c p a ainv n (l.fftT (n + 1)) dir x xo si y yo so W

/-- One transform of `plan_stock_fft::execute` (heffte_backend_stock.h:410-430), as in `stockFFT`. -/
def stockFFTT (N : Nat) (dir : Bool) (v : List K) (out0 : Arr K) (W : Nat → Arr K) : Res (Tick (List K)) := do
  let nodes ← stockPlan N
  if v.length ≠ N then .error .ub
  else match loadTree nodes nodes.length 0 with
    | none => .error .ub
    | some t =>
      .ok do
        let o ← t.fftT tw c 0 dir (fun n => v.getD n 0) 0 1 out0 0 1 W
        pure ((List.range N).map o.1)

end Verif.Stock
