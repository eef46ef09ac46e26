import Verif.R2R
import Mathlib.Analysis.Real.Sqrt

/-!
# Model of the transform objects

`fft3d` (`/repo/include/heffte_fft3d.h`, cited as `fft3d.h`) and `fft3d_r2c` (`/repo/include/heffte_fft3d_r2c.h`, cited as
`fft3d_r2c.h`): construction, the sizes reported to the user, and the methods `forward` and `backward` with scaling.

Simplifications: all ranks are created and called together; numbers have no rounding; sizes are mathematical integers.
-/

namespace Verif

/-- `scale` (fft3d.h:140-147). -/
inductive Scaling where
  | none
  | full
  | symmetric
deriving DecidableEq, Repr

/-- An object on all the ranks; `halved` for `fft3d_r2c`. -/
structure Object where
  plan : Plan
  fft : Fft
  halved : Bool
  family : Family

/-- `set_options` (plan_logic.h:207-232): the sine and cosine transforms of the stock backend always reorder; nothing changes for the
other stock and FFTW backends. -/
def Backend.setOptions (bk : Backend) (opts : Opts) : Opts :=
  match bk.family with
  | .stock _ => { opts with useReorder := true }
  | _ => opts

/-- `workspace_size` of an executor (stock.h:528, 611; fftw.h:321, 477; r2r_executor.h:259-262), zero without executor
(utils.h:430-434). -/
def workOf (e : Option Executor) : Res Int :=
  match e with
  | some (.trig z b d) => workspaceR2R z b d
  | _ => .ok 0

/-- `get_max_work_size` (utils.h:430-434) of a rank. -/
def workOfRank (e : A3 (Option Executor)) : Res Int := do
  let x ← workOf e.x
  let y ← workOf e.y
  let z ← workOf e.z
  .ok (max (max x y) z)

/-- The constructor of `fft3d` (fft3d.h:270-275, 574-584): gather the boxes, plan, set up, find the size of the workspace (fft3d.h:625). -/
def makeFft3d (bk : Backend) (bin bout : List Box) (opts : Opts) : Res Object := do
  let p ← planOperations bin bout Option.none (bk.setOptions opts)
  let f ← setupC2C bk opts.algorithm p
  let _ ← mapRes (fun _ e => workOfRank e) 0 f.execs
  .ok ⟨p, f, false, bk.family⟩

/-- The constructor of `fft3d_r2c` (fft3d_r2c.h:76-82, 301-309). -/
def makeFft3dR2C (bin bout : List Box) (d : Fin 3) (opts : Opts) : Res Object := do
  let p ← planOperations bin bout (some d) opts
  let f ← setupR2C opts.algorithm p
  .ok ⟨p, f, true, .fourier⟩

/-- The number of indexes of rank `r`. -/
def countAt (l : List Box) (r : Nat) : Int := ((l[r]?).map Box.count).getD 0

/-- `size_inbox` (fft3d.h:326, fft3d_r2c.h:121). -/
def Object.sizeInbox (o : Object) (r : Nat) : Int := countAt o.plan.in0 r

/-- `size_outbox` (fft3d.h:328, fft3d_r2c.h:123). -/
def Object.sizeOutbox (o : Object) (r : Nat) : Int := countAt o.plan.out3 r

/-- `size_workspace` (fft3d.h:550, 625-633; fft3d_r2c.h:129, 335-339); `ws` is `workspace_size` of the executors. -/
def Object.sizeWorkspace (ws : Executor → Int) (o : Object) (r : Nat) : Int :=
  let e := (o.fft.execs[r]?).getD ⟨none, none, none⟩
  if o.halved then sizeWorkR2C ws (shaperAt o.fft.fwd r) (shaperAt o.fft.bwd r) e
  else sizeWorkC2C ws (shaperAt o.fft.fwd r) (shaperAt o.fft.bwd r) e

/-- `scale_factor` (fft3d.h:577, 635-648; fft3d_r2c.h:303). -/
noncomputable def Object.baseFactor (o : Object) : ℝ :=
  match o.family with
  | .fourier => 1 / (o.plan.indexCount : ℝ)
  | .fftw .cos1 => 1 / (8 * (o.plan.fftSizes.x - 1) * (o.plan.fftSizes.y - 1) * (o.plan.fftSizes.z - 1) : ℝ)
  | .fftw _ => 1 / (o.plan.indexCount : ℝ) / 8
  | .fftwSin1 => 1 / (8 * (o.plan.fftSizes.x + 1) * (o.plan.fftSizes.y + 1) * (o.plan.fftSizes.z + 1) : ℝ)
  | .stock .cos1 => 1 / (64 * (o.plan.fftSizes.x - 1) * (o.plan.fftSizes.y - 1) * (o.plan.fftSizes.z - 1) : ℝ)
  | .stock _ => 1 / (o.plan.indexCount : ℝ) / 64

/-- `get_scale_factor` (fft3d.h:545-547, fft3d_r2c.h:297). -/
noncomputable def Object.scaleFactor (o : Object) (s : Scaling) : ℝ :=
  let f : ℝ := o.baseFactor
  if s = .symmetric then Real.sqrt f else f

section
variable {α β : Type}

/-- `data_scaling::apply` (pack3d.h:203-232): multiply the first `n` entries. -/
def scaleList (f : α → α) (n : Int) (l : List α) : Res (List α) :=
  if n ≤ l.length then .ok ((l.take n.toNat).map f ++ l.drop n.toNat) else .error .ub

def scaleData (f : α → α) (g : β → β) (n : Int) : Data α β → Res (Data α β)
  | .inl l => do .ok (.inl (← scaleList f n l))
  | .inr l => do .ok (.inr (← scaleList g n l))

/-- `apply_scale` (fft3d.h:663-678, fft3d_r2c.h:352-367) on one rank; `f` and `g` multiply a complex and a real number with
`get_scale_factor`. -/
noncomputable def applyScale (f : ℝ → α → α) (g : ℝ → β → β) (o : Object) (fwd : Bool) (nb : Nat) (s : Scaling) (r : Nat) (m : Mem α β) : Res (Mem α β) :=
  if s ≠ .none then do
    let out ← scaleData (f (o.scaleFactor s)) (g (o.scaleFactor s)) (nb * (if fwd then o.sizeOutbox r else o.sizeInbox r)) m.output
    .ok { m with output := out }
  else .ok m

/-- `forward` and `backward` with a batch and a workspace on all the ranks (fft3d.h:374-416, 480-509; fft3d_r2c.h:157-185, 243-271).
The overloads without a batch size have a batch of one; the ones without a workspace allocate `batch_size * size_workspace()`. -/
noncomputable def Object.call (K : Kernel α β) (f : ℝ → α → α) (g : ℝ → β → β) (W : World α β) (mode : Mode) (o : Object) (fwd : Bool) (nb : Nat)
    (inplace : Nat → Bool) (s : Scaling) (mems : List (Mem α β)) : Res (List (Mem α β)) := do
  let ms ← transform K W mode o.fft fwd nb inplace mems
  mapRes (applyScale f g o fwd nb s) 0 ms

end
end Verif
