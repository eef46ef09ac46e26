import Verif.CApi

/-!
# Model of the Python interface

`/repo/python/heffte.py` is cited as `heffte.py`; the functions of the library that it calls are those of `CApi`.

Simplifications: all the ranks call a method together, with the same scaling; arrays are those of NumPy on the CPU, with one distance between
consecutive elements, and two arguments are the same array or do not overlap; a raised exception is caught and the plan of a factory that
raised is released; the coordinates of a box fit in 32 bits; the division in `split_world` is exact.  Not modelled: `proc_setup`, arrays in
device memory, the conversion of the communicator.
-/

namespace Verif

/-- `dtype` of an array; all the other types are `other`. -/
inductive DType where
  | float32
  | float64
  | complex64
  | complex128
  | other
deriving DecidableEq, Repr

/-- The exceptions: `heffte_input_error` (heffte.py:17-34) and `AttributeError`. -/
inductive PyErr where
  | input
  | attribute
deriving DecidableEq, Repr

/-- The functions `heffte_forward_*` and `heffte_backward_*` by the types in their names. -/
inductive PyFn where
  | s2c
  | c2c
  | d2z
  | z2z
  | c2s
  | z2d
deriving DecidableEq, Repr

/-- A NumPy array: the type, the number of elements, the distance between two elements in memory (one if the array is contiguous), and the
memory from the pointer `ctypes.data` on. -/
structure NdArray (α β : Type) where
  dtype : DType
  size : Nat
  stride : Nat
  data : Data α β

/-- `heffte_fft_plan` (heffte.py:195-205): the attributes `use_r2c` and `plan`. -/
structure PyPlan where
  useR2C : Bool
  handle : Handle

/-- How a factory function ends: with a plan, with `heffte_input_error`, or in undefined behaviour or the end of the process. -/
inductive PyMade where
  | made (p : PyPlan)
  | raised
  | crashed

/-- `backend.valid` (heffte.py:110-116). -/
def pyBackends : List Int := [0, 1, 2, 10, 11]

/-- `plan_options(0,1,1)` (heffte.py:153, 185): three integers; the library reads a fourth one behind them, `gpu`. -/
def pyOptions (gpu : Int) : COptions := ⟨0, 1, 1, gpu⟩

/-- The end of the two factories (heffte.py:159-161, 191-193).  If the code is not zero, the plan object is released together with the
exception and its destructor (heffte.py:204-205) destroys whatever the pointer holds.  An exception of C++ ends the process. -/
def pyFinish (B : CBuild) (useR2C : Bool) : CResult → PyMade
  | .returns code h =>
    if code ≠ 0 then
      match planDestroy B h with
      | .returns _ _ => .raised
      | _ => .crashed
    else .made ⟨useR2C, h⟩
  | _ => .crashed

/-- `fft3d` (heffte.py:134-161) on all the ranks. -/
def pyFft3d (B : CBuild) (backend : Int) (inbox outbox : List CBox) (gpu : Int) (junk : COptions) : PyMade :=
  if backend ∉ pyBackends then .raised
  else pyFinish B false (planCreate B backend inbox outbox (some (pyOptions gpu)) junk)

/-- `fft3d_r2c` (heffte.py:163-193): `use_r2c` is False here too. -/
def pyFft3dR2C (B : CBuild) (backend : Int) (inbox outbox : List CBox) (direction : Int) (gpu : Int) (junk : COptions) : PyMade :=
  if backend ∉ pyBackends then .raised
  else if direction ∉ [0, 1, 2] then .raised
  else pyFinish B false (planCreateR2C B backend inbox outbox direction (some (pyOptions gpu)) junk)

/-- `__del__` (heffte.py:204-205) of a plan that was made. -/
def PyPlan.del (B : CBuild) (p : PyPlan) : CResult := planDestroy B p.handle

section
variable {α β : Type}

/-- The selection of a function by the types of the arrays in `forward` (heffte.py:228-257, 279-312): the type of the input selects, the
type of the output is checked. -/
def pyForwardFn (i o : DType) : Except PyErr PyFn :=
  if i = .float32 then if o ≠ .complex64 then .error .input else .ok .s2c
  else if i = .complex64 then if o ≠ .complex64 then .error .input else .ok .c2c
  else if i = .float64 then if o ≠ .complex128 then .error .input else .ok .d2z
  else if i = .complex128 then if o ≠ .complex128 then .error .input else .ok .z2z
  else .error .input

/-- The selection in `backward` (heffte.py:326-355, 374-407): the type of the output selects, the type of the input is checked. -/
def pyBackwardFn (i o : DType) : Except PyErr PyFn :=
  if o = .float32 then if i ≠ .complex64 then .error .input else .ok .c2s
  else if o = .complex64 then if i ≠ .complex64 then .error .input else .ok .c2c
  else if o = .float64 then if i ≠ .complex128 then .error .input else .ok .z2d
  else if o = .complex128 then if i ≠ .complex128 then .error .input else .ok .z2z
  else .error .input

/-- The check of the type of the workspace (heffte.py:274-277, 369-372); `x` is the type of the array that selects the function. -/
def pyWorkType (x w : DType) : Bool :=
  !((x = .float32 ∨ x = .complex64) ∧ w ≠ .complex64) && !((x = .float64 ∨ x = .complex128) ∧ w ≠ .complex128)

/-- The arguments of a method on one rank: the arrays, whether the two are the same array (`output` holds it), the workspace of the buffered
methods. -/
structure PyArgs (α β : Type) where
  input : NdArray α β
  output : NdArray α β
  same : Bool
  work : Option (NdArray α β)

/-- The check of the size of the workspace (heffte.py:267). -/
def PyArgs.shortWork (x : PyArgs α β) (need : Int) : Bool :=
  match x.work with
  | none => false
  | some w => decide ((w.size : Int) < need)

/-- The check of the type of the workspace, if there is one. -/
def PyArgs.wrongWork (x : PyArgs α β) (t : DType) : Bool :=
  match x.work with
  | none => false
  | some w => !pyWorkType t w.dtype

/-- What `forward` (heffte.py:216-257) and `forward_buffered` (heffte.py:259-312) do on rank `r`: raise an exception or call a function of the
library; `ws` is `workspace_size` of the executors. -/
def PyPlan.forward (ws : Executor → Int) (p : PyPlan) (r : Nat) (scaling : Int) (x : PyArgs α β) : Res (Except PyErr PyFn) :=
  if scaling ∉ [0, 1, 2] then .ok (.error .input)
  else do
    let si ← sizeInboxC p.handle r
    let so ← sizeOutboxC p.handle r
    if (x.input.size : Int) ≠ si ∨ (x.output.size : Int) ≠ so then .ok (.error .input)
    else do
      let sw ← sizeWorkspaceC ws p.handle r
      if x.shortWork sw then .ok (.error .input)
      else if p.useR2C ∧ (x.input.dtype = .complex64 ∨ x.input.dtype = .complex128) then .ok (.error .input)
      else if x.wrongWork x.input.dtype then .ok (.error .input)
      else .ok (pyForwardFn x.input.dtype x.output.dtype)

/-- What `backward` (heffte.py:314-355) and `backward_buffered` (heffte.py:357-407) do on rank `r`: the sizes are compared as in `forward`, the size
of the workspace is not looked at. -/
def PyPlan.backward (p : PyPlan) (r : Nat) (scaling : Int) (x : PyArgs α β) : Res (Except PyErr PyFn) :=
  if scaling ∉ [0, 1, 2] then .ok (.error .input)
  else do
    let si ← sizeInboxC p.handle r
    let so ← sizeOutboxC p.handle r
    if (x.input.size : Int) ≠ si ∨ (x.output.size : Int) ≠ so then .ok (.error .input)
    else if p.useR2C ∧ (x.output.dtype = .complex64 ∨ x.output.dtype = .complex128) then .ok (.error .input)
    else if x.wrongWork x.output.dtype then .ok (.error .input)
    else .ok (pyBackwardFn x.input.dtype x.output.dtype)

/-- The decision of one rank in a direction. -/
def PyPlan.decides (ws : Executor → Int) (p : PyPlan) (fwd : Bool) (r : Nat) (scaling : Int) (x : PyArgs α β) : Res (Except PyErr PyFn) :=
  if fwd then p.forward ws r scaling x else p.backward r scaling x

/-- The class of the function (c.cpp:398-497). -/
def PyFn.types : PyFn → CTypes
  | .c2c => .complex
  | .z2z => .complex
  | _ => .real

/-- The memory that the library gets (heffte.py:207-214): pointers only.  Without a workspace the library allocates one (`fresh`). -/
def PyArgs.mem (x : PyArgs α β) (fresh : List α) : Mem α β :=
  ⟨x.input.data, x.output.data,
    match x.work with
    | none => fresh
    | some w => match w.data with
      | .inl l => l
      | .inr _ => []⟩

/-- How a method ends on all the ranks: the memory afterwards, an exception on all of them (nothing has changed), some ranks wait for
others, or undefined behaviour. -/
inductive PyEnd (α β : Type) where
  | done (ms : List (Mem α β))
  | raised
  | stuck
  | undefined

/-- Does the decision raise an exception? -/
def raises : Res (Except PyErr PyFn) → Bool
  | .ok (.error _) => true
  | _ => false

/-- Does the decision call the function? -/
def picks (fn : PyFn) : Res (Except PyErr PyFn) → Bool
  | .ok (.ok x) => x = fn
  | _ => false

/-- A method of the plan on all the ranks. -/
noncomputable def PyPlan.call (K : Kernel α β) (f : ℝ → α → α) (g : ℝ → β → β) (W : World α β) (ws : Executor → Int) (p : PyPlan) (fwd : Bool)
    (scaling : Int) (fresh : Nat → List α) (args : List (PyArgs α β)) : PyEnd α β :=
  let decisions := args.mapIdx fun r x => p.decides ws fwd r scaling x
  match decisions.head? with
  | some (.ok (.error _)) => if decisions.all raises then .raised else .stuck
  | some (.ok (.ok fn)) =>
    if decisions.all (picks fn) then
      match callC K f g W p.handle fwd fn.types (fun r => ((args[r]?).map PyArgs.same).getD false) scaling (args.mapIdx fun r x => x.mem (fresh r)) with
      | .ok ms => .done ms
      | .error _ => .undefined
    else .stuck
  | _ => .undefined

end

/-- `box3d` (heffte.py:123-132) as an argument of `split_world`; the constructor makes no attribute `size`. -/
structure PyBox where
  low : A3 Int
  high : A3 Int
  order : A3 (Fin 3)
  size : Option (A3 Int)

/-- The constructor (heffte.py:124-132). -/
def PyBox.make (low high : A3 Int) (order : A3 (Fin 3)) : PyBox := ⟨low, high, order, none⟩

/-- Conversion of a number to an integer type. -/
def truncate (q : Rat) : Int := q.num.tdiv q.den

/-- The functions `fast`, `mid`, `slow` (heffte.py:453-455): the division is not the one of integers. -/
def pySplit (low size grid i : Int) : Rat := low + i * ((size : Rat) / grid) + min i (size % grid)

/-- `split_world` (heffte.py:452-462); the coordinates of `box3d` are converted to integers (heffte.py:125-126). -/
def pySplitWorld (world : PyBox) (g : A3 Nat) : Except PyErr (List Box) :=
  match world.size with
  | none => .error .attribute
  | some size => .ok ((List.range g.z).flatMap fun k : Nat => (List.range g.y).flatMap fun j : Nat => (List.range g.x).map fun i : Nat =>
      ⟨⟨truncate (pySplit world.low.x size.x g.x i), truncate (pySplit world.low.y size.y g.y j), truncate (pySplit world.low.z size.z g.z k)⟩,
       ⟨truncate (pySplit world.low.x size.x g.x (i + 1) - 1), truncate (pySplit world.low.y size.y g.y (j + 1) - 1),
        truncate (pySplit world.low.z size.z g.z (k + 1) - 1)⟩, world.order⟩)

end Verif
