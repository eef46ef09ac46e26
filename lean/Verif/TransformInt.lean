import Verif.Api
import Verif.ReshapeInt
import Verif.PlanInt

/-!
# The constructors and the calls of the transforms in machine integers

`Transform.lean` and `Api.lean` model `fft3d` and `fft3d_r2c` with unbounded integers.  The code is a template over the type
`index` of the coordinates (`int` or `long long`), but for both of them the executors keep their members in variables of
type `int`, and the positions of the entries of a batch are products of two `int`.  This file repeats the operations
with the types of the code, on top of the reshape operations of `ReshapeInt.lean`:
* the result of an operation of type `int`, `index` or `long long` that does not fit is the outcome `ub`;
* a conversion to `int` keeps the low 32 bits (`toInt32`), a conversion to `size_t` is modulo `2 ^ 64` (`toSize`).
`/repo/src/heffte_compute_transform.cpp` is cited as `compute_transform.cpp`, `/repo/include/heffte_fft3d.h` as `fft3d.h`,
`/repo/include/heffte_fft3d_r2c.h` as `fft3d_r2c.h`, `/repo/include/heffte_backend_stock.h` as `stock.h`,
`/repo/include/heffte_backend_fftw.h` as `fftw.h`, `/repo/include/heffte_geometry.h` as `geometry.h`,
`/repo/include/heffte_utils.h` as `utils.h`, `/repo/include/heffte_pack3d.h` as `pack3d.h`.

Simplifications:
* the plan is the one of `PlanInt.lean`, in machine integers; afterwards the coordinates and the extents of the boxes fit the type `index`, and
  `box3d::count` fits `long long`;
* the positions inside of the workspace that are products of an `int` and a `size_t` (compute_transform.cpp:32, 70, 139, 149, 165,
  208, 210) are not reduced modulo `2 ^ 64`: the workspace has at least that many entries;
* the executors of the sine and cosine transforms of the stock backend are not covered, running one is `ub`;
* the arithmetic inside of one dimensional transforms is not covered, for FFTW neither is the arithmetic of the library.
-/

namespace Verif

/-- The machine: the type of the coordinates, and whether the positions of the entries of the lines are computed by a library in 64 bits
(FFTW) or by the plans of the stock backend in `int`. -/
structure Machine where
  index : IndexType
  library : Bool
deriving DecidableEq, Repr

/-- The number fits an `int`. -/
def fitsInt (x : Int) : Bool := IndexType.int.fits x

/-! ## The members of the executors -/

/-- The members of an executor in one direction; the stock and FFTW classes have the same ones (stock.h:538, 631-632; fftw.h:338,
488-489).  A complex-to-complex executor has the same distances for the input and the output. -/
structure LinesM where
  size : Int
  num : Int
  stride : Int
  blocks : Int
  rdist : Int
  cdist : Int
  rblock : Int
  cblock : Int
  rsize : Int
  csize : Int
deriving DecidableEq, Repr

/-- `fft1d_get_howmany` (geometry.h:160-164): a product of type `index` converted to `int`. -/
def howManyM (t : IndexType) (b : Box) (d : Fin 3) : Res Int :=
  if d = b.order 0 then do
    let n ← t.arith (b.osize 1 * b.osize 2)
    .ok (toInt32 n)
  else if d = b.order 1 then .ok (toInt32 (b.osize 0))
  else do
    let n ← t.arith (b.osize 0 * b.osize 1)
    .ok (toInt32 n)

/-- `fft1d_get_stride` (geometry.h:170-174). -/
def lineStrideM (t : IndexType) (b : Box) (d : Fin 3) : Res Int :=
  if d = b.order 0 then .ok 1
  else if d = b.order 1 then .ok (toInt32 (b.osize 0))
  else do
    let n ← t.arith (b.osize 0 * b.osize 1)
    .ok (toInt32 n)

/-- `blocks` (stock.h:459, 563; fftw.h:224, 428). -/
def numBlocksM (b : Box) (d : Fin 3) : Int := if d = b.order 1 then toInt32 (b.osize 2) else 1

/-- The constructor of `stock_fft_executor` and `fftw_executor` in one direction (stock.h:453-463, fftw.h:218-229). -/
def linesM (t : IndexType) (b : Box) (d : Fin 3) : Res LinesM := do
  let num ← howManyM t b d
  let stride ← lineStrideM t b d
  let block ← t.arith (b.osize 0 * b.osize 1)
  let dist := if d = b.order 0 then toInt32 (b.size d) else 1
  .ok ⟨toInt32 (b.size d), num, stride, numBlocksM b d, dist, dist, toInt32 block, toInt32 block, toInt32 b.count, toInt32 b.count⟩

/-- The constructor of `stock_fft_executor_r2c` and `fftw_executor_r2c` (stock.h:557-569, fftw.h:422-434); `box.r2c` computes with the type
`index` (geometry.h:86-95). -/
def linesR2CM (t : IndexType) (b : Box) (d : Fin 3) : Res LinesM := do
  let num ← howManyM t b d
  let stride ← lineStrideM t b d
  let rblock ← t.arith (b.osize 0 * b.osize 1)
  let half ← t.arith (b.osize 1 / 2 + 1)
  let cblock ← t.arith (b.osize 0 * half)
  let cdist ← if d = b.order 0 then intArith (toInt32 (b.size d) / 2 + 1) else .ok 1
  let rdist := if d = b.order 0 then toInt32 (b.size d) else 1
  .ok ⟨toInt32 (b.size d), num, stride, numBlocksM b d, rdist, cdist, toInt32 rblock, toInt32 cblock, toInt32 b.count,
    toInt32 (b.r2c d).count⟩

/-- The constructor of `fftw_executor` for two directions (fftw.h:230-253): `embed[1]` (or the default of the library), `howmanyffts`, `stride`
and `dist`. -/
def mergedM (t : IndexType) (b : Box) (dir1 dir2 : Fin 3) : Res (Int × Int × Int × Int) :=
  let size := toInt32 (b.size (min dir1 dir2))
  let size2 := toInt32 (b.size (max dir1 dir2))
  let o1 := b.findOrder dir1
  let o2 := b.findOrder dir2
  if min o1 o2 = 0 ∧ max o1 o2 = 1 then do
    let dist ← intArith (size * size2)
    .ok (size, toInt32 (b.size 2), 1, dist)
  else if min o1 o2 = 1 ∧ max o1 o2 = 2 then .ok (size, toInt32 (b.size 0), toInt32 (b.size 0), 1)
  else do
    let e1 ← t.arith (b.size 1 * b.size 0)
    .ok (toInt32 e1, toInt32 (b.size 1), 1, size)

/-- The constructor of an executor. -/
def constructM (t : IndexType) : Option Executor → Res Unit
  | some (.one b d) => do
    let _ ← linesM t b d
    .ok ()
  | some (.r2c b d) => do
    let _ ← linesR2CM t b d
    .ok ()
  | some (.two b d1 d2) => do
    let _ ← mergedM t b d1 d2
    .ok ()
  | _ => .ok ()

/-! ## The loops of the executors -/

/-- The position of one entry of the line number `p`: `int idx = p*idist + i*stride_sz` (stock.h:270, 277, 346, 354, 370, 378, 418, 425). -/
def entryFits (dist stride p i : Int) : Bool := fitsInt (p * dist) && fitsInt (i * stride) && fitsInt (p * dist + i * stride)

/-- The operations of type `int` of one call of an executor: `i * block_stride` in the loops over the blocks, in the stock plans also the
counter of the lines, `N + 2` in the real-to-complex ones and the positions of `n` entries of the real and `m` of the
complex lines.  `w` is the number of lanes. -/
def LinesM.fits (M : Machine) (w : Nat) (l : LinesM) (n m : Int) : Bool :=
  decide (0 < l.size) && (loop l.blocks).all (fun i => fitsInt (i * l.rblock) && fitsInt (i * l.cblock)) &&
    (M.library || fitsInt (l.num + w) && fitsInt (l.size + 2) &&
      (loop l.num).all fun p => ((loop n).all fun i => entryFits l.rdist l.stride p i) &&
        (loop m).all fun i => entryFits l.cdist l.stride p i)

/-- The groups of lines, see `laneGroups`. -/
def laneGroupsM (w : Nat) (l : LinesM) (ibase idist iblock obase odist oblock : Int) : List (List (Int × Int)) :=
  (loop l.blocks).flatMap fun i => (groupsOf w l.num).map fun ps =>
    ps.map fun p => (ibase + i * iblock + p * idist, obase + i * oblock + p * odist)

section
variable {α β : Type}

/-- The complex-to-complex executor in one direction, see `execC2C`. -/
def execC2CM (M : Machine) (w : Nat) (T : Nat → Int × Int → List α → Res (List α)) (b : Box) (d : Fin 3) (base : Int) (mem : List α) :
    Res (List α) := do
  let l ← linesM M.index b d
  if l.fits M w l.size l.size then
    runInPlace (T l.size.toNat) l.size.toNat l.stride (laneGroupsM w l base l.rdist l.rblock base l.rdist l.rblock) mem
  else .error .ub

/-- The real-to-complex executor, see `execR2C`. -/
def execR2CM (M : Machine) (w : Nat) (T : Nat → Int × Int → List α → Res (List β)) (b : Box) (d : Fin 3) (rbase cbase : Int)
    (src : List α) (dst : List β) : Res (List β) := do
  let l ← linesR2CM M.index b d
  if l.fits M w l.size ((l.size + 2) / 2) then
    runOut (T l.size.toNat) l.size.toNat ((l.size + 2) / 2).toNat l.stride src
      (laneGroupsM w l rbase l.rdist l.rblock cbase l.cdist l.cblock) dst
  else .error .ub

/-- The complex-to-real executor, see `execC2R`. -/
def execC2RM (M : Machine) (w : Nat) (T : Nat → Int × Int → List α → Res (List β)) (b : Box) (d : Fin 3) (cbase rbase : Int)
    (src : List α) (dst : List β) : Res (List β) := do
  let l ← linesR2CM M.index b d
  if l.fits M w l.size ((l.size + 2) / 2) then
    runOut (T l.size.toNat) ((l.size + 2) / 2).toNat l.size.toNat l.stride src
      (laneGroupsM w l cbase l.cdist l.cblock rbase l.rdist l.rblock) dst
  else .error .ub

/-- `fftw_executor` with two directions (fftw.h:230-253), see `fftwExec2`. -/
def fftwExec2M (t : IndexType) (T : Nat → Int × Int → List α → Res (List α)) (b : Box) (dir1 dir2 : Fin 3) (base : Int) (mem : List α) :
    Res (List α) := do
  let m ← mergedM t b dir1 dir2
  fftwRank2 T (toInt32 (b.size (max dir1 dir2))) (toInt32 (b.size (min dir1 dir2))) m.1 m.2.1 m.2.2.1 m.2.2.2 base mem

/-- `fftw_executor` with three directions (fftw.h:254-262), see `fftwExec3`. -/
def fftwExec3M (T : Nat → Int × Int → List α → Res (List α)) (b : Box) (base : Int) (mem : List α) : Res (List α) :=
  fftwRank3 T (toInt32 (b.size 2)) (toInt32 (b.size 1)) (toInt32 (b.size 0)) base mem

/-- `forward`/`backward` in place, see `runC2C`. -/
def runC2CM (M : Machine) (K : Kernel α β) (tag : Tag) (fwd : Bool) (e : Executor) (base : Int) (mem : List α) : Res (List α) :=
  match e with
  | .one b d => execC2CM M K.lanes (K.line tag fwd) b d base mem
  | .two b d1 d2 => fftwExec2M M.index (K.line tag fwd) b d1 d2 base mem
  | .three b => fftwExec3M (K.line tag fwd) b base mem
  | .r2c _ _ => .ok mem
  | .trig _ _ _ => .error .ub

/-- `forward` from real to complex, see `runR2C`; `total_size` is an `int`. -/
def runR2CM (M : Machine) (K : Kernel α β) (tag : Tag) (e : Executor) (rbase cbase : Int) (src : List β) (dst : List α) : Res (List α) :=
  match e with
  | .r2c b d => execR2CM M K.lanes (K.fromReal tag) b d rbase cbase src dst
  | e => execFromReal K.cast (runC2CM M K tag true e cbase) (toInt32 e.boxSize) rbase cbase src dst

/-- `backward` from complex to real, see `runC2R`. -/
def runC2RM (M : Machine) (K : Kernel α β) (tag : Tag) (e : Executor) (cbase rbase : Int) (src : List α) (dst : List β) :
    Res (List α × List β) :=
  match e with
  | .r2c b d => do
    let out ← execC2RM M K.lanes (K.toReal tag) b d cbase rbase src dst
    .ok (src, out)
  | e => execToReal K.re (runC2CM M K tag false e cbase) (toInt32 e.boxSize) cbase rbase src dst

/-! ## compute_transform -/

/-- `box_size()` and `complex_size()` of type `int`, see `Env.size`. -/
def Env.sizeM (E : Env) (s : Sz) : Res Int := do
  let n ← E.size s
  .ok (toInt32 n)

/-- One call of an executor for the batch entry `j`, see `runCall`; `j * executor[k]->box_size()` is a product of two `int`
(compute_transform.cpp:40, 45, 156-159, 169-170, 182, 193, 226, 243-244, 254-255). -/
def runCallM (M : Machine) (K : Kernel α β) (E : Env) (j : Nat) (m : Mem α β) (c : Call) : Res (Mem α β) :=
  match E.execs c.k with
  | none => .error .ub
  | some e => do
    let tag : Tag := ⟨E.rank, c.k, j⟩
    let so ← E.sizeM c.sstep
    let so ← intArith (j * so)
    let dof ← E.sizeM c.dstep
    let dof ← intArith (j * dof)
    match m.get K E c.src, m.get K E c.dst with
    | .inl src, .inl _ =>
      if c.src = c.dst ∧ c.sstep = c.dstep then
        m.put K E c.dst (.inl (← runC2CM M K tag E.fwd e so src))
      else .error .ub
    | .inr src, .inl dst => m.put K E c.dst (.inl (← runR2CM M K tag e so dof src dst))
    | .inl src, .inr dst => do
      let (src', dst') ← runC2RM M K tag e so dof src dst
      let m ← m.put K E c.src (.inl src')
      m.put K E c.dst (.inr dst')
    | .inr _, .inr _ => .error .ub

/-- One operation of one rank, see `runInstr`; `batch_size * executor[k]->box_size()` is a product of two `int` (compute_transform.cpp:61,
76, 98, 219) converted to the `size_t` of `copy_n`. -/
def runInstrM (M : Machine) (K : Kernel α β) (E : Env) (c : Instr) (m : Mem α β) : Res (Mem α β) :=
  match c with
  | .copy k src dst => do
    let n ← E.sizeM (.box k)
    let n ← intArith (E.nb * n)
    m.put K E dst (← copyData (toSize n) (m.get K E src) (m.get K E dst))
  | .batch calls => (List.range E.nb).foldlM (fun m (j : Nat) => calls.foldlM (runCallM M K E j) m) m
  | .reshape _ _ _ => .error .ub

/-- See `advance`. -/
def advanceM (M : Machine) (K : Kernel α β) (E : Env) (i : Fin 4) : List Instr → Mem α β → Res (List Instr × (Buf × Buf) × Mem α β)
  | [], _ => .error .ub
  | .reshape k s d :: t, m => if k = i then .ok (t, (s, d), m) else .error .ub
  | c :: t, m => do advanceM M K E i t (← runInstrM M K E c m)

/-- See `finish`. -/
def finishM (M : Machine) (K : Kernel α β) (E : Env) : List Instr → Mem α β → Res (Mem α β)
  | [], m => .ok m
  | c :: t, m => do finishM M K E t (← runInstrM M K E c m)

/-- See `stageAdvance`. -/
def stageAdvanceM (M : Machine) (K : Kernel α β) (env : Nat → Env) (i : Fin 4) (r : Nat) (x : Option Shaper × (List Instr × Mem α β)) :
    Res (List Instr × Option (Buf × Buf) × Mem α β) :=
  match x.1 with
  | none => .ok (x.2.1, none, x.2.2)
  | some _ =>
    match advanceM M K (env r) i x.2.1 x.2.2 with
    | .ok (t, sd, m) => .ok (t, some sd, m)
    | .error e => .error e

variable {γ : Type}

/-- See `runStage`; the reshape is the one in machine integers. -/
def runStageM (M : Machine) (K : Kernel α β) (env : Nat → Env) (port : Nat → Port α β γ) (i : Fin 4) (stride nb : Nat) (done : Nat → List Nat)
    (shs : List (Option Shaper)) (sts : State α β) : Res (State α β) :=
  if shs.all Option.isNone then .ok sts
  else do
    let adv ← mapRes (stageAdvanceM M K env i) 0 (shs.zip sts)
    let arrs ← mapRes (stageArrays port) 0 adv
    let dsts ← reshapeAllM M.index stride nb done (stageInplace env adv) shs arrs
    mapRes (stagePut port) 0 (adv.zip dsts)

/-- `get_max_box_size` (utils.h:409-413): the `int` are converted to `size_t`. -/
def maxBoxSizeM (e : A3 (Option Executor)) : Int :=
  max (max (sizeOr0 (fun x => toSize (toInt32 x.boxSize)) e.x) (sizeOr0 (fun x => toSize (toInt32 x.boxSize)) e.y))
    (sizeOr0 (fun x => toSize (toInt32 x.boxSize)) e.z)

/-- `get_max_box_size_r2c` (utils.h:420-424). -/
def maxBoxSizeR2CM (e : A3 (Option Executor)) : Int :=
  max (max (sizeOr0 (fun x => toSize (toInt32 x.complexSize)) e.x) (sizeOr0 (fun x => toSize (toInt32 x.boxSize)) e.y))
    (sizeOr0 (fun x => toSize (toInt32 x.boxSize)) e.z)

/-- The size of the real buffer, see `realCut`. -/
def realCutM (mode : Mode) (e : Fin 3 → Option Executor) : Int :=
  match mode with
  | .c2r => sizeOr0 (fun x => toInt32 x.boxSize) (e 2)
  | _ => maxBoxSizeM ⟨e 0, e 1, e 2⟩

/-- `batch_size * executor[2]->box_size()` in the last reshape of a complex-to-real transform is a product of two `int`
(compute_transform.cpp:248-249). -/
def cutFitsM (shs : List (Option Shaper)) (env : Nat → Env) : Bool :=
  shs.zipIdx.all fun s => s.1.isNone || fitsInt ((env s.2).nb * realCutM .c2r (env s.2).execs)

/-! ## The objects -/

/-- An object with the cached members `comm_buffer_offset` and `size_buffer_work` of each rank (fft3d.h:691, fft3d_r2c.h:379). -/
structure MachineObject extends Object where
  comm : List Int
  sizes : List Int

/-- The constants of rank `r` in a call, see `Fft.env`. -/
def MachineObject.env (o : MachineObject) (fwd : Bool) (nb : Nat) (inplace : Nat → Bool) (r : Nat) : Env :=
  ⟨r, nb, fwd, inplace r, o.comm.getD r 0, o.fft.executors fwd r⟩

/-- `size_workspace` (fft3d.h:550, fft3d_r2c.h:129). -/
def MachineObject.sizeWorkspace (o : MachineObject) (r : Nat) : Int := o.sizes.getD r 0

/-- `compute_transform` on all ranks, see `transform`. -/
def transformM (M : Machine) (K : Kernel α β) (W : World α β) (mode : Mode) (o : MachineObject) (fwd : Bool) (nb : Nat) (inplace : Nat → Bool)
    (mems : List (Mem α β)) : Res (List (Mem α β)) := do
  let env := o.env fwd nb inplace
  let shs := o.fft.shapers fwd
  let cport := fun (i : Fin 4) r => complexPort K (env r) (W.junk i r)
  let rport := fun (i : Fin 4) r => realPort K (env r) (realCutM mode (env r).execs) (W.junkReal i r)
  let s ← mapRes (fun r (m : Mem α β) => do
    .ok (← program mode (patternOf (shaperAt shs r) (env r).execs (inplace r)), m)) 0 mems
  let s ← if mode = .r2c then runStageM M K env (rport 0) 0 W.stride nb (W.done 0) (shs 0) s
    else runStageM M K env (cport 0) 0 W.stride nb (W.done 0) (shs 0) s
  let s ← runStageM M K env (cport 1) 1 W.stride nb (W.done 1) (shs 1) s
  let s ← runStageM M K env (cport 2) 2 W.stride nb (W.done 2) (shs 2) s
  let s ← if mode = .c2r then
      (if cutFitsM (shs 3) env then runStageM M K env (rport 3) 3 W.stride nb (W.done 3) (shs 3) s else .error .ub)
    else runStageM M K env (cport 3) 3 W.stride nb (W.done 3) (shs 3) s
  mapRes (fun r (x : List Instr × Mem α β) => finishM M K (env r) x.1 x.2) 0 s

/-- `data_scaling::apply` (pack3d.h:203-232): the number of entries is a `long long`, doubled for complex numbers. -/
def scaleDataM (f : α → α) (g : β → β) (n : Int) : Data α β → Res (Data α β)
  | .inl l => do
    let _ ← IndexType.longLong.arith (2 * n)
    scaleData f g n (.inl l)
  | .inr l => scaleData f g n (.inr l)

/-- `apply_scale` (fft3d.h:663-678, fft3d_r2c.h:352-367), see `applyScale`: the product of an `int` and a `long long`. -/
noncomputable def applyScaleM (f : ℝ → α → α) (g : ℝ → β → β) (o : Object) (fwd : Bool) (nb : Nat) (s : Scaling) (r : Nat)
    (m : Mem α β) : Res (Mem α β) :=
  if s ≠ .none then do
    let n ← IndexType.longLong.arith (nb * (if fwd then o.sizeOutbox r else o.sizeInbox r))
    let out ← scaleDataM (f (o.scaleFactor s)) (g (o.scaleFactor s)) n m.output
    .ok { m with output := out }
  else .ok m

/-- `forward` and `backward` on all the ranks, see `Object.call`. -/
noncomputable def MachineObject.call (M : Machine) (K : Kernel α β) (f : ℝ → α → α) (g : ℝ → β → β) (W : World α β) (mode : Mode)
    (o : MachineObject) (fwd : Bool) (nb : Nat) (inplace : Nat → Bool) (s : Scaling) (mems : List (Mem α β)) : Res (List (Mem α β)) := do
  let ms ← transformM M K W mode o fwd nb inplace mems
  mapRes (applyScaleM f g o.toObject fwd nb s) 0 ms

end

/-! ## The constructors -/

/-- `get_workspace_size` (reshape3d.h:115-119). -/
def workspaceOfM (t : IndexType) (s : Fin 4 → Option Shaper) : Res Int :=
  [s 0, s 1, s 2, s 3].foldlM (fun acc x => match x with
    | some sh => do
      let n ← sh.sizeWorkspaceM t
      .ok (max acc n)
    | none => .ok acc) 0

/-- `comm_buffer_offset` (fft3d.h:626, fft3d_r2c.h:336). -/
def commSizeM (t : IndexType) (fwd bwd : Fin 4 → Option Shaper) : Res Int := do
  let a ← workspaceOfM t fwd
  let b ← workspaceOfM t bwd
  .ok (max a b)

/-- `last_chunk` (fft3d.h:629), an `int`. -/
def lastChunkM (bwd : Fin 4 → Option Shaper) (e : A3 (Option Executor)) : Res Int :=
  match e.x with
  | none => .ok 0
  | some x => if (bwd 3).isSome then do
      let n ← intArith (toInt32 x.boxSize + 1)
      .ok (n / 2)
    else .ok 0

/-- The four lists `forward_shaper[i]`, see `forwardShapers`. -/
def forwardShapersM (t : IndexType) (alg : Alg) (p : Plan) : Res (Fin 4 → List (Option Shaper)) := do
  let s0 ← shapersOfM t alg p.in0 p.out0
  let s1 ← shapersOfM t alg p.in1 p.out1
  let s2 ← shapersOfM t alg p.in2 p.out2
  let s3 ← shapersOfM t alg p.in3 p.out3
  .ok fun i => [s0, s1, s2, s3].getD i []

/-- The four lists `backward_shaper[3-i]`, see `backwardShapers`. -/
def backwardShapersM (t : IndexType) (alg : Alg) (p : Plan) : Res (Fin 4 → List (Option Shaper)) := do
  let s0 ← shapersOfM t alg p.out0 p.in0
  let s1 ← shapersOfM t alg p.out1 p.in1
  let s2 ← shapersOfM t alg p.out2 p.in2
  let s3 ← shapersOfM t alg p.out3 p.in3
  .ok fun i => [s3, s2, s1, s0].getD i []

/-- The constructors of the executors of one rank. -/
def constructAllM (t : IndexType) (e : A3 (Option Executor)) : Res Unit := do
  let _ ← constructM t e.x
  let _ ← constructM t e.y
  constructM t e.z

/-- `fft3d::setup` and `fft3d_r2c::setup` up to the executors (fft3d.h:599-623, fft3d_r2c.h:325-333); `make` gives the executors of a rank. -/
def setupM (t : IndexType) (alg : Alg) (p : Plan) (make : Box → Box → Box → Bool → Bool → A3 (Option Executor)) : Res Fft := do
  let f ← forwardShapersM t alg p
  let b ← backwardShapersM t alg p
  let ex ← mapRes (fun r (_ : Box) => do
    let (b0, b1, b2) ← p.execBoxes r
    let e := make b0 b1 b2 (shaperAt f r 1).isSome (shaperAt f r 2).isSome
    let _ ← constructAllM t e
    .ok e) 0 p.in0
  .ok ⟨f, b, ex⟩

/-- `comm_buffer_offset` of all ranks. -/
def commAllM (t : IndexType) (f : Fft) : Res (List Int) :=
  mapRes (fun r _ => commSizeM t (shaperAt f.fwd r) (shaperAt f.bwd r)) 0 f.execs

/-- The constructor of `fft3d` for the Fourier transforms (fft3d.h:574-633), see `makeFft3d`. -/
def makeFft3dM (t : IndexType) (bk : Backend) (bin bout : List Box) (opts : Opts) : Res MachineObject := do
  let p ← planOperationsM t bin bout Option.none (bk.setOptions opts)
  let f ← setupM t opts.algorithm p (executorsC2C bk p.dirs)
  let comm ← commAllM t f
  let sizes ← mapRes (fun r (e : A3 (Option Executor)) => do
    let last ← lastChunkM (shaperAt f.bwd r) e
    .ok (toSize (comm.getD r 0 + maxBoxSizeM e + last))) 0 f.execs
  .ok ⟨⟨p, f, false, bk.family⟩, comm, sizes⟩

/-- The constructor of `fft3d_r2c` (fft3d_r2c.h:301-339), see `makeFft3dR2C`. -/
def makeFft3dR2CM (t : IndexType) (bin bout : List Box) (d : Fin 3) (opts : Opts) : Res MachineObject := do
  let p ← planOperationsM t bin bout (some d) opts
  let f ← setupM t opts.algorithm p (fun b0 b1 b2 _ _ => executorsR2C p.dirs b0 b1 b2)
  let comm ← commAllM t f
  let sizes ← mapRes (fun r (e : A3 (Option Executor)) => .ok (toSize (comm.getD r 0 + maxBoxSizeR2CM e))) 0 f.execs
  .ok ⟨⟨p, f, true, .fourier⟩, comm, sizes⟩

end Verif
