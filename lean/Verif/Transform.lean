import Verif.Reshape
import Verif.ExecLines

/-!
# Model of `setup` and `compute_transform`

`/repo/src/heffte_compute_transform.cpp` is cited as `compute_transform.cpp`, `/repo/include/heffte_fft3d.h` as `fft3d.h`,
`/repo/include/heffte_fft3d_r2c.h` as `fft3d_r2c.h`, `/repo/include/heffte_utils.h` as `utils.h`,
`/repo/include/heffte_r2r_executor.h` as `r2r_executor.h`.

The control flow of `compute_transform` depends only on which of the four reshapes and three executors exist and on `input ==
output`, so it is modelled as a function from such a `Pattern` to the list of the operations of one rank; calling a method of a null
pointer is the outcome `ub`.  The operations then act on the arrays of the rank.

Simplifications:
* offsets and sizes are mathematical integers (`int` and `size_t` in the code);
* the batch size is at least one where a null pointer is used inside of a loop over the batch;
* the workspace of the executors is not passed on (`workspace_size` is zero for the stock and FFTW executors of complex data,
  stock.h:528, 611, fftw.h:321, 477); its position is modelled by `execOffset`;
* ranks interact only in the reshapes; ranks that have the reshape number `i` meet there.
-/

namespace Verif

/-! ## Executors and setup -/

/-- The objects made by `make_executor` and `make_executor_r2c` (common.h:670-708): one, two or three directions, or real-to-complex.
`real2real_executor` (r2r_executor.h:199-209) of the stock backend is `trig`. -/
inductive Executor where
  | one (b : Box) (d : Fin 3)
  | two (b : Box) (d1 d2 : Fin 3)
  | three (b : Box)
  | r2c (b : Box) (d : Fin 3)
  | trig (z : Trig) (b : Box) (d : Fin 3)
deriving DecidableEq, Repr

/-- `box_size` (stock.h:525, 607; fftw.h:319, 473; r2r_executor.h:257). -/
def Executor.boxSize : Executor → Int
  | .one b _ => b.count
  | .two b _ _ => b.count
  | .three b => b.count
  | .r2c b _ => b.count
  | .trig _ b _ => b.count

/-- `complex_size` (common.h:594; stock.h:609; fftw.h:475). -/
def Executor.complexSize : Executor → Int
  | .r2c b d => (b.r2c d).count
  | e => e.boxSize

/-- The null pointer for an empty box (common.h:670-708). -/
def makeExecutor (b : Box) (e : Executor) : Option Executor := if b.empty then none else some e

/-- The transforms of a backend: Fourier transforms, sine and cosine transforms (the backends `stock_cos`, …, `fftw_cos`, …), and
`fftw_sin1`. -/
inductive Family where
  | fourier
  | stock (z : Trig)
  | fftw (z : Trig)
  | fftwSin1
deriving DecidableEq, Repr

/-- `has_executor2d`, `has_executor3d` (common.h:714-755): true for FFTW, false for stock. -/
structure Backend where
  hasTwo : Bool
  hasThree : Bool
  family : Family
deriving DecidableEq, Repr

def Backend.stock : Backend := ⟨false, false, .fourier⟩
def Backend.fftw : Backend := ⟨true, true, .fourier⟩
def Backend.stockTrig (z : Trig) : Backend := ⟨false, false, .stock z⟩
/-- `fftw_cos`, `fftw_sin`, `fftw_cos1` (heffte_backend_fftw.h:704-735): the members of `real2real_executor<backend::fftw, ...>` (:578-625) and the
plans (:533-559) are the ones of `fftw_executor`, so the executors are the same; the kind of the transform (:560-573) is part of the kernel. -/
def Backend.fftwTrig (z : Trig) : Backend := ⟨true, true, .fftw z⟩
/-- `fftw_sin1` (heffte_backend_fftw.h:740-747). -/
def Backend.fftwSin1 : Backend := ⟨true, true, .fftwSin1⟩

/-- The executor of one direction (common.h:670-677). -/
def Backend.one (bk : Backend) (b : Box) (d : Fin 3) : Executor :=
  match bk.family with
  | .stock z => .trig z b d
  | _ => .one b d

/-- The executors of one rank in `fft3d::setup` (fft3d.h:607-623); `s1`, `s2` tell if `forward_shaper[1]`, `forward_shaper[2]` exist. -/
def executorsC2C (bk : Backend) (dirs : A3 (Fin 3)) (b0 b1 b2 : Box) (s1 s2 : Bool) : A3 (Option Executor) :=
  if bk.hasThree && !s1 && !s2 then
    ⟨makeExecutor b0 (.three b0), none, none⟩
  else if bk.hasTwo && (!s1 || !s2) then
    if !s1 then ⟨makeExecutor b0 (.two b0 dirs.x dirs.y), none, makeExecutor b2 (bk.one b2 dirs.z)⟩
    else ⟨makeExecutor b0 (bk.one b0 dirs.x), none, makeExecutor b2 (.two b2 dirs.y dirs.z)⟩
  else
    ⟨makeExecutor b0 (bk.one b0 dirs.x), makeExecutor b1 (bk.one b1 dirs.y), makeExecutor b2 (bk.one b2 dirs.z)⟩

/-- The executors of one rank in `fft3d_r2c::setup` (fft3d_r2c.h:331-333). -/
def executorsR2C (dirs : A3 (Fin 3)) (b0 b1 b2 : Box) : A3 (Option Executor) :=
  ⟨makeExecutor b0 (.r2c b0 dirs.x), makeExecutor b1 (.one b1 dirs.y), makeExecutor b2 (.one b2 dirs.z)⟩

/-- The reshapes of all ranks for the four stages, and the executors of all ranks in forward order. -/
structure Fft where
  fwd : Fin 4 → List (Option Shaper)
  bwd : Fin 4 → List (Option Shaper)
  execs : List (A3 (Option Executor))

/-- The reshape number `i` of rank `r`. -/
def shaperAt (l : Fin 4 → List (Option Shaper)) (r : Nat) (i : Fin 4) : Option Shaper := ((l i)[r]?).join

/-- The four lists `forward_shaper[i]` (fft3d.h:601, fft3d_r2c.h:327). -/
def forwardShapers (alg : Alg) (p : Plan) : Res (Fin 4 → List (Option Shaper)) := do
  let s0 ← shapersOf alg p.in0 p.out0
  let s1 ← shapersOf alg p.in1 p.out1
  let s2 ← shapersOf alg p.in2 p.out2
  let s3 ← shapersOf alg p.in3 p.out3
  .ok fun i => [s0, s1, s2, s3].getD i []

/-- The four lists `backward_shaper[3-i]` (fft3d.h:602, fft3d_r2c.h:328). -/
def backwardShapers (alg : Alg) (p : Plan) : Res (Fin 4 → List (Option Shaper)) := do
  let s0 ← shapersOf alg p.out0 p.in0
  let s1 ← shapersOf alg p.out1 p.in1
  let s2 ← shapersOf alg p.out2 p.in2
  let s3 ← shapersOf alg p.out3 p.in3
  .ok fun i => [s3, s2, s1, s0].getD i []

/-- The three boxes of the executors of rank `r`. -/
def Plan.execBoxes (p : Plan) (r : Nat) : Res (Box × Box × Box) :=
  match p.out0[r]?, p.out1[r]?, p.out2[r]? with
  | some b0, some b1, some b2 => .ok (b0, b1, b2)
  | _, _, _ => .error .ub

/-- `fft3d::setup` on all ranks (fft3d.h:599-623). -/
def setupC2C (bk : Backend) (alg : Alg) (p : Plan) : Res Fft := do
  let f ← forwardShapers alg p
  let b ← backwardShapers alg p
  let ex ← mapRes (fun r (_ : Box) => do
    let (b0, b1, b2) ← p.execBoxes r
    .ok (executorsC2C bk p.dirs b0 b1 b2 (shaperAt f r 1).isSome (shaperAt f r 2).isSome)) 0 p.in0
  .ok ⟨f, b, ex⟩

/-- `fft3d_r2c::setup` on all ranks (fft3d_r2c.h:325-333). -/
def setupR2C (alg : Alg) (p : Plan) : Res Fft := do
  let f ← forwardShapers alg p
  let b ← backwardShapers alg p
  let ex ← mapRes (fun r (_ : Box) => do
    let (b0, b1, b2) ← p.execBoxes r
    .ok (executorsR2C p.dirs b0 b1 b2)) 0 p.in0
  .ok ⟨f, b, ex⟩

/-! ## Sizes -/

/-- `get_workspace_size` (reshape3d.h:115-119). -/
def workspaceOf (s : Fin 4 → Option Shaper) : Int :=
  [s 0, s 1, s 2, s 3].foldl (fun acc x => match x with
    | some sh => max acc sh.sizeWorkspace
    | none => acc) 0

/-- `comm_buffer_offset` (fft3d.h:626, fft3d_r2c.h:336). -/
def commSize (fwd bwd : Fin 4 → Option Shaper) : Int := max (workspaceOf fwd) (workspaceOf bwd)

/-- The size of an executor, zero for a null pointer. -/
def sizeOr0 (f : Executor → Int) (e : Option Executor) : Int :=
  match e with
  | some x => f x
  | none => 0

/-- `get_max_box_size` (utils.h:409-413). -/
def maxBoxSize (e : A3 (Option Executor)) : Int :=
  max (max (sizeOr0 Executor.boxSize e.x) (sizeOr0 Executor.boxSize e.y)) (sizeOr0 Executor.boxSize e.z)

/-- `get_max_box_size_r2c` (utils.h:420-424). -/
def maxBoxSizeR2C (e : A3 (Option Executor)) : Int :=
  max (max (sizeOr0 Executor.complexSize e.x) (sizeOr0 Executor.boxSize e.y)) (sizeOr0 Executor.boxSize e.z)

/-- `get_max_work_size` (utils.h:430-434); `ws` is `workspace_size` of the executors. -/
def maxWorkSize (ws : Executor → Int) (e : A3 (Option Executor)) : Int :=
  max (max (sizeOr0 ws e.x) (sizeOr0 ws e.y)) (sizeOr0 ws e.z)

/-- `size_buffer_work` of `fft3d` (fft3d.h:629-632). -/
def sizeWorkC2C (ws : Executor → Int) (fwd bwd : Fin 4 → Option Shaper) (e : A3 (Option Executor)) : Int :=
  let lastChunk := match e.x with
    | none => 0
    | some x => if (bwd 3).isSome then (x.boxSize + 1) / 2 else 0
  commSize fwd bwd + maxWorkSize ws e + maxBoxSize e + lastChunk

/-- `size_buffer_work` of `fft3d_r2c` (fft3d_r2c.h:337-338). -/
def sizeWorkR2C (ws : Executor → Int) (fwd bwd : Fin 4 → Option Shaper) (e : A3 (Option Executor)) : Int :=
  commSize fwd bwd + maxBoxSizeR2C e + maxWorkSize ws e

/-- `executor_buffer_offset` (fft3d.h:633, fft3d_r2c.h:339), zero stands for "no workspace". -/
def execOffset (sizeWork maxWork : Int) : Int := if maxWork = 0 then 0 else sizeWork - maxWork

/-! ## The operations of one rank -/

/-- The arrays of one rank: the arguments `input` and `output`, and `temp_buffer` and `reshaped_input`/`real_buffer` inside of the workspace. -/
inductive Buf where
  | input
  | output
  | temp
  | real
deriving DecidableEq, Repr

/-- The sizes used as distances between the entries of a batch: `executor[k]->box_size()`, `executor[k]->complex_size()`. -/
inductive Sz where
  | box (k : Fin 3)
  | cplx (k : Fin 3)
deriving DecidableEq, Repr

/-- One call of an executor for the batch entry `j`: `executor[k]->forward(src + j * sstep, dst + j * dstep)`, in place if `src = dst`. -/
structure Call where
  k : Fin 3
  src : Buf
  sstep : Sz
  dst : Buf
  dstep : Sz
deriving DecidableEq, Repr

/-- The operations: `copy_n(src, batch_size * executor[k]->box_size(), dst)`; a loop over the batch with some calls in the body;
`shaper[i]->apply(batch_size, src, dst, ...)`. -/
inductive Instr where
  | copy (k : Fin 3) (src dst : Buf)
  | batch (calls : List Call)
  | reshape (i : Fin 4) (src dst : Buf)
deriving DecidableEq, Repr

/-- What the control flow depends on: which reshapes and executors exist, and `input == output`. -/
structure Pattern where
  s0 : Bool
  s1 : Bool
  s2 : Bool
  s3 : Bool
  e0 : Bool
  e1 : Bool
  e2 : Bool
  inplace : Bool
deriving DecidableEq, Repr

def Pattern.s (P : Pattern) : Nat → Bool
  | 0 => P.s0
  | 1 => P.s1
  | 2 => P.s2
  | 3 => P.s3
  | _ => false

def Pattern.e (P : Pattern) : Fin 3 → Bool
  | 0 => P.e0
  | 1 => P.e1
  | 2 => P.e2

/-- `get_last_active` (utils.h:387-391). -/
def Pattern.last (P : Pattern) : Int :=
  [0, 1, 2, 3].foldl (fun (last : Int) (i : Nat) => if P.s i then (i : Int) else last) (-1)

/-- `count_active` (utils.h:398-402). -/
def Pattern.active (P : Pattern) : Nat :=
  [0, 1, 2, 3].foldl (fun (num : Nat) (i : Nat) => if P.s i then num + 1 else num) 0

/-- `apply_fft` (compute_transform.cpp:34-48), also the loops at 180-183, 191-194, 224-227. -/
def applyFft (P : Pattern) (buf : Buf) (i : Nat) : Res (List Instr) :=
  if h : i < 3 then
    let k : Fin 3 := ⟨i, h⟩
    .ok (if P.e k then [.batch [⟨k, buf, .box k, buf, .box k⟩]] else [])
  else .error .ub

/-- `shaper[i]->apply(...)` for an index computed at run time. -/
def applyShaper (P : Pattern) (i : Nat) (src dst : Buf) : Res (List Instr) :=
  if h : i < 4 then (if P.s i then .ok [.reshape ⟨i, h⟩ src dst] else .error .ub) else .error .ub

/-- `for(int i=a; i<b; i++) body(i)`. -/
def forLoop (a b : Nat) (body : Nat → Res (List Instr)) : Res (List Instr) :=
  (List.range' a (b - a)).foldlM (fun acc (i : Nat) => do .ok (acc ++ (← body i))) []

/-- The first executor that is not null, 2 without any (compute_transform.cpp:60, 217). -/
def Pattern.valid (P : Pattern) : Fin 3 := if P.e 0 then 0 else if P.e 1 then 1 else 2

/-- `copy_n(stream, src, batch_size * executor[k]->box_size(), dst)`. -/
def copyAll (P : Pattern) (k : Fin 3) (src dst : Buf) : Res (List Instr) :=
  if P.e k then .ok [.copy k src dst] else .error .ub

/-- `while(not shaper[active_shaper]) apply_fft(active_shaper++, output)` (compute_transform.cpp:103-106). -/
def whileInactive (P : Pattern) : List Nat → Res (List Instr × Nat)
  | [] => .error .ub
  | i :: t =>
    if P.s i then .ok ([], i)
    else do
      let f ← applyFft P .output i
      let (l, k) ← whileInactive P t
      .ok (f ++ l, k)

/-- `compute_transform` with the same type of input and output (compute_transform.cpp:15-127). -/
def programSame (P : Pattern) : Res (List Instr) :=
  let last := P.last
  if last < 1 then do
    let move ←
      if last = 0 then applyShaper P 0 .input .output
      else if !P.inplace then copyAll P P.valid .input .output
      else .ok []
    let ffts ← forLoop 0 3 (applyFft P .output)
    .ok (move ++ ffts)
  else if P.active = 1 then do
    let eff : Buf := if !P.inplace then .temp else .output
    let move := if !P.inplace && P.e 0 then [Instr.copy 0 .input .temp] else []
    let before ← forLoop 0 last.toNat (applyFft P eff)
    let move2 ← applyShaper P last.toNat eff .output
    let after ← forLoop last.toNat 3 (applyFft P .output)
    .ok (move ++ before ++ move2 ++ after)
  else do
    let (first, active) ←
      if P.s 0 || !P.inplace then do
        let l ← if P.s 0 then applyShaper P 0 .input .temp else copyAll P 0 .input .temp
        pure (l, 1)
      else do
        let (l, a) ← whileInactive P [0, 1, 2, 3]
        let sh ← applyShaper P a .output .temp
        pure (l ++ sh, a + 1)
    let fft ← applyFft P .temp (active - 1)
    let middle ← forLoop active last.toNat fun (i : Nat) => do
      let f ← applyFft P .temp i
      if P.s i then pure ((← applyShaper P i .temp .temp) ++ f) else pure f
    let move ← applyShaper P last.toNat .temp .output
    let after ← forLoop last.toNat 3 (applyFft P .output)
    .ok (first ++ fft ++ middle ++ move ++ after)

/-- `compute_transform` from real to complex (compute_transform.cpp:129-196). -/
def programR2C (P : Pattern) : Res (List Instr) :=
  let last := P.last
  let first := if P.s 0 then [Instr.reshape 0 .input .real] else []
  let eff : Buf := if P.s 0 then .real else .input
  if last < 1 then
    if !P.e 0 && (P.e 1 || P.e 2) then .error .ub -- `executor[0]->box_size()`
    else
      let calls := (if P.e 0 then [Call.mk 0 eff (.box 0) .output (.cplx 0)] else []) ++
        (if P.e 1 then [Call.mk 1 .output (.box 0) .output (.box 0)] else []) ++
        (if P.e 2 then [Call.mk 2 .output (.box 0) .output (.box 0)] else [])
      .ok (first ++ if calls = [] then [] else [.batch calls])
  else do
    let fft := if P.e 0 then [Instr.batch [⟨0, eff, .box 0, .temp, .cplx 0⟩]] else []
    let middle ← forLoop 1 last.toNat fun (i : Nat) => do
      let f ← applyFft P .temp i
      if P.s i then pure ((← applyShaper P i .temp .temp) ++ f) else pure f
    let move ← applyShaper P last.toNat .temp .output
    let after ← forLoop last.toNat 3 (applyFft P .output)
    .ok (first ++ fft ++ middle ++ move ++ after)

/-- `compute_transform` from complex to real (compute_transform.cpp:197-258). -/
def programC2R (P : Pattern) : Res (List Instr) := do
  let first ← if P.s 0 then applyShaper P 0 .input .temp else copyAll P P.valid .input .temp
  let middle ← forLoop 0 2 fun (i : Nat) => do
    let f ← applyFft P .temp i
    if P.s (i + 1) then pure (f ++ (← applyShaper P (i + 1) .temp .temp)) else pure f
  let tail :=
    if P.s 3 then
      (if P.e 2 then [Instr.batch [⟨2, .temp, .cplx 2, .real, .box 2⟩]] else []) ++ [Instr.reshape 3 .real .output]
    else if P.e 2 then [Instr.batch [⟨2, .temp, .cplx 2, .output, .box 2⟩]]
    else []
  .ok (first ++ middle ++ tail)

/-! ## Execution -/

/-- An array of complex or of real numbers. -/
abbrev Data (α β : Type) := List α ⊕ List β

/-- Where an executor is called: the rank, the number of the executor, the entry of the batch. -/
structure Tag where
  rank : Nat
  k : Fin 3
  batch : Nat

/-- The arithmetic: one dimensional transforms (of complex data in a direction, real-to-complex, complex-to-real) and the layout of a
complex number as two real numbers. -/
structure Kernel (α β : Type) where
  lanes : Nat
  line : Tag → Bool → Nat → Int × Int → List α → Res (List α)
  fromReal : Tag → Nat → Int × Int → List β → Res (List α)
  toReal : Tag → Nat → Int × Int → List α → Res (List β)
  cast : β → α
  re : α → β
  parts : α → β × β
  join : β → β → α
  /-- `real2real_executor::forward` and `backward` (r2r_executor.h:221-245). -/
  trig : Tag → Bool → Trig → Box → Fin 3 → Int → List α → Res (List α) := fun _ _ _ _ _ _ _ => .error .ub

section
variable {α β : Type}

/-- A complex array seen as an array of reals, twice as long (`reinterpret_cast`, compute_transform.cpp:144, 149, 239, 248). -/
def Kernel.toReals (K : Kernel α β) (l : List α) : List β := l.flatMap fun z => [(K.parts z).1, (K.parts z).2]

/-- The inverse of `toReals`. -/
def Kernel.toComplex (K : Kernel α β) : List β → List α
  | a :: b :: t => K.join a b :: K.toComplex t
  | _ => []

/-- `forward`/`backward` in place.  The method of the real-to-complex executor is the empty one of the base class
(common.h:574-580). -/
def runC2C (K : Kernel α β) (tag : Tag) (fwd : Bool) (e : Executor) (base : Int) (mem : List α) : Res (List α) :=
  match e with
  | .one b d => execC2C K.lanes (K.line tag fwd (b.size d).toNat) b d base mem
  | .two b d1 d2 => fftwExec2 (K.line tag fwd) b d1 d2 base mem
  | .three b => fftwExec3 (K.line tag fwd) b base mem
  | .r2c _ _ => .ok mem
  | .trig z b d => K.trig tag fwd z b d base mem

/-- `forward` from real to complex (stock.h:499-502, 558-583; fftw.h:304-307). -/
def runR2C (K : Kernel α β) (tag : Tag) (e : Executor) (rbase cbase : Int) (src : List β) (dst : List α) : Res (List α) :=
  match e with
  | .r2c b d => execR2C K.lanes (K.fromReal tag (b.size d).toNat) b d rbase cbase src dst
  | e => execFromReal K.cast (runC2C K tag true e cbase) e.boxSize rbase cbase src dst

/-- `backward` from complex to real (stock.h:504-507, 584-598; fftw.h:309-312); the input array may change. -/
def runC2R (K : Kernel α β) (tag : Tag) (e : Executor) (cbase rbase : Int) (src : List α) (dst : List β) :
    Res (List α × List β) :=
  match e with
  | .r2c b d => do .ok (src, ← execC2R K.lanes (K.toReal tag (b.size d).toNat) b d cbase rbase src dst)
  | e => execToReal K.re (runC2C K tag false e cbase) e.boxSize cbase rbase src dst

/-- The arrays of one rank. -/
structure Mem (α β : Type) where
  input : Data α β
  output : Data α β
  work : List α

/-- The constants of one rank in a call. -/
structure Env where
  rank : Nat
  nb : Nat
  fwd : Bool
  inplace : Bool
  /-- `size_comm_buffers` -/
  comm : Int
  execs : Fin 3 → Option Executor

/-- Two arrays with the same pointer: the input is the output in an in-place call. -/
def Env.pointer (E : Env) (b : Buf) : Buf := if E.inplace ∧ b = .input then .output else b

/-- The position of `temp_buffer` (compute_transform.cpp:70, 165, 208). -/
def Env.tempOff (E : Env) : Nat := (E.nb * E.comm).toNat

/-- The value of a size; a null pointer is undefined. -/
def Env.size (E : Env) : Sz → Res Int
  | .box k => match E.execs k with
    | some e => .ok e.boxSize
    | none => .error .ub
  | .cplx k => match E.execs k with
    | some e => .ok e.complexSize
    | none => .error .ub

/-- The array behind a pointer.  The buffers inside of the workspace are cut at the position of `temp_buffer`: an access across it is
out of bounds here. -/
def Mem.get (K : Kernel α β) (E : Env) (m : Mem α β) : Buf → Data α β
  | .input => if E.inplace then m.output else m.input
  | .output => m.output
  | .temp => .inl (m.work.drop E.tempOff)
  | .real => .inr (K.toReals (m.work.take E.tempOff))

/-- The arrays after a change of one of them; the input is constant unless it is the output. -/
def Mem.put (K : Kernel α β) (E : Env) (m : Mem α β) : Buf → Data α β → Res (Mem α β)
  | .input, x => if E.inplace then .ok { m with output := x } else .error .ub
  | .output, x => .ok { m with output := x }
  | .temp, .inl l => .ok { m with work := m.work.take E.tempOff ++ l }
  | .real, .inr l => .ok { m with work := K.toComplex l ++ m.work.drop E.tempOff }
  | _, _ => .error .ub

/-- One call of an executor.  The types of the two arrays select the method. -/
def runCall (K : Kernel α β) (E : Env) (j : Nat) (m : Mem α β) (c : Call) : Res (Mem α β) :=
  match E.execs c.k with
  | none => .error .ub
  | some e => do
    let tag : Tag := ⟨E.rank, c.k, j⟩
    let so ← E.size c.sstep
    let dof ← E.size c.dstep
    match m.get K E c.src, m.get K E c.dst with
    | .inl src, .inl _ =>
      if c.src = c.dst ∧ c.sstep = c.dstep then
        m.put K E c.dst (.inl (← runC2C K tag E.fwd e (j * so) src))
      else .error .ub
    | .inr src, .inl dst => m.put K E c.dst (.inl (← runR2C K tag e (j * so) (j * dof) src dst))
    | .inl src, .inr dst => do
      let (src', dst') ← runC2R K tag e (j * so) (j * dof) src dst
      let m ← m.put K E c.src (.inl src')
      m.put K E c.dst (.inr dst')
    | .inr _, .inr _ => .error .ub

/-- A copy between two arrays (`copy_n`, memory of the CPU). -/
def copyData (n : Int) (src dst : Data α β) : Res (Data α β) :=
  match src, dst with
  | .inl s, .inl d => do .ok (.inl (← copyMoves ((loop n).map fun i => (i, i)) s d))
  | .inr s, .inr d => do .ok (.inr (← copyMoves ((loop n).map fun i => (i, i)) s d))
  | _, _ => .error .ub

/-- One operation of one rank; the reshapes are done by all the ranks together. -/
def runInstr (K : Kernel α β) (E : Env) (c : Instr) (m : Mem α β) : Res (Mem α β) :=
  match c with
  | .copy k src dst => do
    let n ← E.size (.box k)
    m.put K E dst (← copyData (E.nb * n) (m.get K E src) (m.get K E dst))
  | .batch calls => (List.range E.nb).foldlM (fun m (j : Nat) => calls.foldlM (runCall K E j) m) m
  | .reshape _ _ _ => .error .ub

/-- Run the operations up to the reshape number `i`. -/
def advance (K : Kernel α β) (E : Env) (i : Fin 4) : List Instr → Mem α β → Res (List Instr × (Buf × Buf) × Mem α β)
  | [], _ => .error .ub
  | .reshape k s d :: t, m => if k = i then .ok (t, (s, d), m) else .error .ub
  | c :: t, m => do advance K E i t (← runInstr K E c m)

/-- Run the remaining operations. -/
def finish (K : Kernel α β) (E : Env) : List Instr → Mem α β → Res (Mem α β)
  | [], m => .ok m
  | c :: t, m => do finish K E t (← runInstr K E c m)

/-- How a reshape accesses the arrays of one rank: the arguments of `apply`, and the arrays afterwards. -/
structure Port (α β γ : Type) where
  arrays : Mem α β → Buf × Buf → Option (Arrays γ)
  put : Mem α β → Buf × Buf → List γ → Res (Mem α β)

/-- `shaper[i]->apply(batch_size, src, dst, workspace)` for complex data.  The communication workspace ends at `temp_buffer`; after the
call it holds anything (`junk`). -/
def complexPort (K : Kernel α β) (E : Env) (junk : List α → List α) : Port α β α where
  arrays := fun m sd => match m.get K E sd.1, m.get K E sd.2 with
    | .inl s, .inl d => some ⟨s, d, m.work.take E.tempOff⟩
    | _, _ => none
  put := fun m sd d => do
    let m ← m.put K E sd.2 (.inl d)
    .ok { m with work := junk (m.work.take E.tempOff) ++ m.work.drop E.tempOff }

/-- The reshape of real data (compute_transform.cpp:148-149, 248-249): the real buffer are the first `q` complex entries of the
workspace for each entry of the batch, the communication workspace is behind it. -/
def realPort (K : Kernel α β) (E : Env) (q : Int) (junk : List β → List β) : Port α β β where
  arrays := fun m sd =>
    let cut := (E.nb * q).toNat
    let buf : Data α β := .inr (K.toReals (m.work.take cut))
    match (if sd.1 = .real then buf else m.get K E sd.1), (if sd.2 = .real then buf else m.get K E sd.2) with
    | .inr s, .inr d => some ⟨s, d, K.toReals (m.work.drop cut)⟩
    | _, _ => none
  put := fun m sd d =>
    let cut := (E.nb * q).toNat
    let ws := K.toComplex (junk (K.toReals (m.work.drop cut)))
    if sd.2 = .real then .ok { m with work := K.toComplex d ++ ws }
    else do
      let m ← m.put K E sd.2 (.inr d)
      .ok { m with work := m.work.take cut ++ ws }

variable {γ : Type}

/-- The state of all ranks between two reshapes: the operations that remain and the arrays. -/
abbrev State (α β : Type) := List (List Instr × Mem α β)

/-- A rank that has the reshape number `i` runs its operations up to there. -/
def stageAdvance (K : Kernel α β) (env : Nat → Env) (i : Fin 4) (r : Nat) (x : Option Shaper × (List Instr × Mem α β)) :
    Res (List Instr × Option (Buf × Buf) × Mem α β) :=
  match x.1 with
  | none => .ok (x.2.1, none, x.2.2)
  | some _ =>
    match advance K (env r) i x.2.1 x.2.2 with
    | .ok (t, sd, m) => .ok (t, some sd, m)
    | .error e => .error e

/-- The arguments of `apply`. -/
def stageArrays (port : Nat → Port α β γ) (r : Nat) (x : List Instr × Option (Buf × Buf) × Mem α β) : Res (Arrays γ) :=
  match x.2.1 with
  | none => .ok ⟨[], [], []⟩
  | some sd =>
    match (port r).arrays x.2.2 sd with
    | some a => .ok a
    | none => .error .ub

/-- The arrays after `apply`. -/
def stagePut (port : Nat → Port α β γ) (r : Nat) (x : (List Instr × Option (Buf × Buf) × Mem α β) × List γ) : Res (List Instr × Mem α β) :=
  match x.1.2.1 with
  | none => .ok (x.1.1, x.1.2.2)
  | some sd =>
    match (port r).put x.1.2.2 sd x.2 with
    | .ok m => .ok (x.1.1, m)
    | .error e => .error e

/-- Source and destination are the same array. -/
def stageInplace (env : Nat → Env) (adv : List (List Instr × Option (Buf × Buf) × Mem α β)) (r : Nat) : Bool :=
  match (adv[r]?).bind fun x => x.2.1 with
  | some sd => decide ((env r).pointer sd.1 = (env r).pointer sd.2)
  | none => false

/-- The reshape number `i` of all ranks.  A rank that has it runs its operations up to there; the others are not affected. -/
def runStage (K : Kernel α β) (env : Nat → Env) (port : Nat → Port α β γ) (i : Fin 4) (stride nb : Nat) (done : Nat → List Nat)
    (shs : List (Option Shaper)) (sts : State α β) : Res (State α β) :=
  if shs.all Option.isNone then .ok sts
  else do
    let adv ← mapRes (stageAdvance K env i) 0 (shs.zip sts)
    let arrs ← mapRes (stageArrays port) 0 adv
    let dsts ← reshapeAll stride nb done (stageInplace env adv) shs arrs
    mapRes (stagePut port) 0 (adv.zip dsts)

/-- What the environment decides in a call: the block size of the transposes, the order in which messages complete (per stage and rank),
and what the communication workspace holds after a reshape. -/
structure World (α β : Type) where
  stride : Nat
  done : Fin 4 → Nat → List Nat
  junk : Fin 4 → Nat → List α → List α
  junkReal : Fin 4 → Nat → List β → List β

/-- The pattern of one rank. -/
def patternOf (s : Fin 4 → Option Shaper) (e : Fin 3 → Option Executor) (inplace : Bool) : Pattern :=
  ⟨(s 0).isSome, (s 1).isSome, (s 2).isSome, (s 3).isSome, (e 0).isSome, (e 1).isSome, (e 2).isSome, inplace⟩

/-- The reshapes of a direction. -/
def Fft.shapers (o : Fft) (fwd : Bool) : Fin 4 → List (Option Shaper) := if fwd then o.fwd else o.bwd

/-- `forward_executors`, `backward_executors` (fft3d.h:653-659, fft3d_r2c.h:342-348). -/
def Fft.executors (o : Fft) (fwd : Bool) (r : Nat) (k : Fin 3) : Option Executor :=
  match o.execs[r]? with
  | some e => if fwd then e.get k else e.get (2 - k)
  | none => none

/-- The constants of rank `r` in a call (fft3d.h:379-382, 397-400). -/
def Fft.env (o : Fft) (fwd : Bool) (nb : Nat) (inplace : Nat → Bool) (r : Nat) : Env :=
  ⟨r, nb, fwd, inplace r, commSize (shaperAt o.fwd r) (shaperAt o.bwd r), o.executors fwd r⟩

/-- The kinds of calls: same types, real to complex (`forward`), complex to real (`backward`). -/
inductive Mode where
  | same
  | r2c
  | c2r
deriving DecidableEq, Repr

/-- The three overloads of `compute_transform`. -/
def program : Mode → Pattern → Res (List Instr)
  | .same => programSame
  | .r2c => programR2C
  | .c2r => programC2R

/-- The size of the real buffer in front of the communication workspace: `get_max_box_size` (compute_transform.cpp:149) for the first
reshape of a real-to-complex transform, `executor[2]->box_size()` or zero (248-249) for the last one of a complex-to-real
transform. -/
def realCut (mode : Mode) (e : Fin 3 → Option Executor) : Int :=
  match mode with
  | .c2r => sizeOr0 Executor.boxSize (e 2)
  | _ => maxBoxSize ⟨e 0, e 1, e 2⟩

/-- `compute_transform` on all ranks. -/
def transform (K : Kernel α β) (W : World α β) (mode : Mode) (o : Fft) (fwd : Bool) (nb : Nat) (inplace : Nat → Bool)
    (mems : List (Mem α β)) : Res (List (Mem α β)) := do
  let env := o.env fwd nb inplace
  let shs := o.shapers fwd
  let cport := fun (i : Fin 4) r => complexPort K (env r) (W.junk i r)
  let rport := fun (i : Fin 4) r => realPort K (env r) (realCut mode (env r).execs) (W.junkReal i r)
  let s ← mapRes (fun r (m : Mem α β) => do
    .ok (← program mode (patternOf (shaperAt shs r) (env r).execs (inplace r)), m)) 0 mems
  let s ← if mode = .r2c then runStage K env (rport 0) 0 W.stride nb (W.done 0) (shs 0) s
    else runStage K env (cport 0) 0 W.stride nb (W.done 0) (shs 0) s
  let s ← runStage K env (cport 1) 1 W.stride nb (W.done 1) (shs 1) s
  let s ← runStage K env (cport 2) 2 W.stride nb (W.done 2) (shs 2) s
  let s ← if mode = .c2r then runStage K env (rport 3) 3 W.stride nb (W.done 3) (shs 3) s
    else runStage K env (cport 3) 3 W.stride nb (W.done 3) (shs 3) s
  mapRes (fun r (x : List Instr × Mem α β) => finish K (env r) x.1 x.2) 0 s

end
end Verif
