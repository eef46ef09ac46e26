import Verif.Api

/-!
# Model of the C interface

`/repo/src/heffte_c.cpp` is cited as `c.cpp`, `/repo/include/heffte_c_defines.h` as `c_defines.h`.

Simplifications: the CPU backends only (stock, FFTW if it is enabled); all the ranks call a function together, with the same options; the
storage order of a box is a permutation-like triple of directions (other integers are not modelled); an allocation does not fail.
-/

namespace Verif

/-- The build: is FFTW enabled, are asserts active. -/
structure CBuild where
  fftw : Bool
  debug : Bool

/-- `heffte_plan_options` (c_defines.h:112-121). -/
structure COptions where
  useReorder : Int
  algorithm : Int
  usePencils : Int
  useGpuAware : Int

/-- The arguments `low`, `high`, `order` for one box; a null pointer for the order is `none`. -/
structure CBox where
  low : A3 Int
  high : A3 Int
  order : Option (A3 (Fin 3))

/-- What the variable `heffte_plan *plan` of the caller holds: what it held before the call, the address of a deleted struct, or a
struct `heffte_fft_plan` (c_defines.h:132-139), in which the pointer `fft` may not have been set. -/
inductive Handle where
  | untouched
  | dangling
  | plan (backend : Int) (r2c : Bool) (fft : Option Object)

/-- How a call ends: with a return code, with an exception that leaves the C function, or in undefined behaviour (or an abort). -/
inductive CResult where
  | returns (code : Int) (h : Handle)
  | throws (e : Err) (h : Handle)
  | undefined

/-- `backend_valid_c` (c.cpp:17-44). -/
def CBuild.valid (B : CBuild) (backend : Int) : Bool := backend == 0 || (B.fftw && backend == 1)

/-- The backend of the class that is used (c.cpp:248-257). -/
def backendOf (backend : Int) : Backend := if backend = 1 then .fftw else .stock

/-- `make_box3d_c` (c.cpp:74-80). -/
def CBox.box (b : CBox) : Box := ⟨b.low, b.high, b.order.getD ⟨0, 1, 2⟩⟩

/-- `options_from_c_options` (c.cpp:59-72). -/
def COptions.toOpts (c : COptions) : Res Opts :=
  let opts (a : Alg) : Opts := { Opts.default true with useReorder := c.useReorder != 0, usePencils := c.usePencils != 0, algorithm := a }
  if c.algorithm = 0 then .ok (opts .alltoallv)
  else if c.algorithm = 1 then .ok (opts .p2pPlined)
  else if c.algorithm = 2 then .ok (opts .p2p)
  else .error .runtime

/-- `get_scaling_c` (c.cpp:82-89). -/
def scalingOf (s : Int) : Scaling := if s = 1 then .full else if s = 2 then .symmetric else .none

/-- `heffte_set_default_options` (c.cpp:195-227): the return code and the options; `use_gpu_aware` is not set. -/
def setDefaultOptions (B : CBuild) (backend : Int) (o : COptions) : Int × COptions :=
  if !B.valid backend then (1, o)
  else
    let opts := Opts.default true
    (0, { o with useReorder := if opts.useReorder then 1 else 0, algorithm := 0, usePencils := if opts.usePencils then 1 else 0 })

/-- The common part of the two functions that create a plan; `make` is the constructor; `junk` is the uninitialised variable `c_opts`. -/
def createWith (B : CBuild) (r2c : Bool) (make : Opts → Res Object) (backend : Int) (options : Option COptions) (junk : COptions) : CResult :=
  if !B.valid backend then .returns 1 .untouched
  else
    let c := match options with
      | some c => c
      | none => (setDefaultOptions B backend junk).2
    match c.toOpts with
    | .error e => .throws e (.plan backend r2c none)
    | .ok o =>
      match make o with
      | .ok ob => .returns 0 (.plan backend r2c (some ob))
      | .error .runtime => .returns 2 .dangling
      | .error .invalid => .throws .invalid (.plan backend r2c none)
      | .error .ub => .undefined

/-- The constructor of `fft3d` with the checks of a debug build. -/
def construct (B : CBuild) (bk : Backend) (bin bout : List Box) (opts : Opts) : Res Object :=
  if B.debug then do
    planAsserts bin bout none
    makeFft3d bk bin bout opts
  else makeFft3d bk bin bout opts

/-- The constructor of `fft3d_r2c` with the checks of a debug build (fft3d_r2c.h:79); a direction other than 0, 1, 2 is not checked in
a release build and is used as an index. -/
def constructR2C (B : CBuild) (bin bout : List Box) (d : Int) (opts : Opts) : Res Object :=
  if h : 0 ≤ d ∧ d < 3 then
    let d : Fin 3 := ⟨d.toNat, by omega⟩
    if B.debug then do
      planAsserts bin bout (some d)
      makeFft3dR2C bin bout d opts
    else makeFft3dR2C bin bout d opts
  else .error .ub

/-- `heffte_plan_create` (c.cpp:229-280); the boxes of all the ranks. -/
def planCreate (B : CBuild) (backend : Int) (inbox outbox : List CBox) (options : Option COptions) (junk : COptions) : CResult :=
  createWith B false (construct B (backendOf backend) (inbox.map CBox.box) (outbox.map CBox.box)) backend options junk

/-- `heffte_plan_create_r2c` (c.cpp:282-334). -/
def planCreateR2C (B : CBuild) (backend : Int) (inbox outbox : List CBox) (d : Int) (options : Option COptions) (junk : COptions) : CResult :=
  createWith B true (constructR2C B (inbox.map CBox.box) (outbox.map CBox.box) d) backend options junk

/-- `heffte_plan_destroy` (c.cpp:336-380): the return code and what the pointer is afterwards. -/
def planDestroy (B : CBuild) : Handle → CResult
  | .plan backend r2c fft =>
    if !B.valid backend then .returns 3 (.plan backend r2c fft)
    else match fft with
      | some _ => .returns 0 .dangling
      | none => .undefined
  | _ => .undefined

/-- `heffte_size_inbox` (c.cpp:382-384, 97-100) on rank `r`: the size is returned as `int`. -/
def sizeInboxC (h : Handle) (r : Nat) : Res Int :=
  match h with
  | .plan _ _ (some ob) => .ok (toInt32 (ob.sizeInbox r))
  | _ => .error .ub

/-- `heffte_size_outbox` (c.cpp:385-387, 102-105). -/
def sizeOutboxC (h : Handle) (r : Nat) : Res Int :=
  match h with
  | .plan _ _ (some ob) => .ok (toInt32 (ob.sizeOutbox r))
  | _ => .error .ub

/-- `heffte_size_workspace` (c.cpp:388-390, 107-110); `ws` is `workspace_size` of the executors. -/
def sizeWorkspaceC (ws : Executor → Int) (h : Handle) (r : Nat) : Res Int :=
  match h with
  | .plan _ _ (some ob) => .ok (toInt32 (ob.sizeWorkspace ws r))
  | _ => .error .ub

/-- `heffte_get_backend` (c.cpp:391-393). -/
def getBackendC : Handle → Res Int
  | .plan backend _ _ => .ok backend
  | _ => .error .ub

/-- `heffte_is_r2c` (c.cpp:394-396). -/
def isR2C : Handle → Res Int
  | .plan _ r2c _ => .ok (if r2c then 1 else 0)
  | _ => .error .ub

/-- The types in the names of the functions: `c2c`, `z2z`; `s2c`, `d2z` forward, `c2s`, `z2d` backward. -/
inductive CTypes where
  | complex
  | real
deriving DecidableEq, Repr

/-- `compute_transform` that belongs to the types. -/
def CTypes.mode (fwd : Bool) : CTypes → Mode
  | .complex => .same
  | .real => if fwd then .r2c else .c2r

section
variable {α β : Type}

/-- `heffte_forward_*`, `heffte_backward_*` with and without workspace (c.cpp:398-497) on all the ranks: the functions for complex data
always use the class `fft3d` (`call_returnable_c_nor2c`, c.cpp:168-189). -/
noncomputable def callC (K : Kernel α β) (f : ℝ → α → α) (g : ℝ → β → β) (W : World α β) (h : Handle) (fwd : Bool) (types : CTypes)
    (inplace : Nat → Bool) (scale : Int) (mems : List (Mem α β)) : Res (List (Mem α β)) :=
  match h with
  | .plan _ r2c (some ob) =>
    if types = .complex ∧ r2c = true then .error .ub
    else ob.call K f g W (types.mode fwd) fwd 1 inplace (scalingOf scale) mems
  | _ => .error .ub

end
end Verif
