import Verif.SpecPlanVars
import Verif.MpiSession

/-!
# Plans in variables of C++: the code

`/repo/include/heffte_fft3d.h` is cited as `fft3d.h`, `/repo/include/heffte_fft3d_r2c.h` as `fft3d_r2c.h`,
`/repo/include/heffte_reshape3d.h` as `reshape3d.h`, `/repo/src/heffte_reshape3d.cpp` as `reshape3d.cpp`,
`/repo/include/heffte_magma_helpers.h` as `magma.h`, `/repo/src/heffte_magma_helpers.cpp` as `magma.cpp`,
`/repo/include/heffte_r2r_executor.h` as `r2r_executor.h`, `/repo/include/heffte_backend_stock.h` as `stock.h` and in the same way `fftw.h`,
`mkl.h`, `cuda.h`, `rocm.h` and `oneapi.h`.

The classes `fft3d` and `fft3d_r2c` declare no copy or move operations and no destructor, so the compiler makes them member by member:
the members are `std::unique_ptr`s (fft3d.h:680-685, fft3d_r2c.h:368-373), numbers, and with MAGMA the structure `magma_handle`
(fft3d.h:686-688), which has a destructor of its own and therefore no move operations: moving it copies its pointer.

The members in the order of their declaration have the numbers 0 and 1 (`pinbox`, `poutbox`), 2 to 5 (`forward_shaper`), 6 to 9
(`backward_shaper`), 10 to 12 (`executors`), 13 (`hmagma`).  Not modelled: streams (they belong to the user), memory inside of
`std::vector`, exceptions in constructors.
-/

namespace Verif

/-- The FFT libraries. -/
inductive FftLibrary where
  | stock | fftw | mkl | cufft | rocfft | onemkl
deriving DecidableEq, Repr

/-- The classes of executors: complex, shortened real, and sine or cosine. -/
inductive ExecClass where
  | c2c | r2c | trig
deriving DecidableEq, Repr

/-- The plans that an executor holds, true if the constructor makes them: stock.h:538-541, 622-625; fftw.h:339-342, 488-491; mkl.h:306-307,
442-445; cuda.h:570-571, 747-750; rocm.h:721-724, 872-875 (made by `compute_workspace_size`, 692-702, 850-858); oneapi.h:550-551, 665-666
(members, not pointers). -/
def FftLibrary.complexOrReal : FftLibrary → Bool → List Bool
  | .stock, _ | .fftw, _ => [false, false, false, false]
  | .mkl, false | .cufft, false => [false, false]
  | .mkl, true | .cufft, true => [false, false, false, false]
  | .rocfft, _ => [true, true, true, true]
  | .onemkl, _ => [true, true]

/-- The parts of an executor.  The sine and cosine transforms of FFTW have four plans of their own (fftw.h:679-682); otherwise
`real2real_executor` has an executor of the class `r2c` (r2r_executor.h:206, 277), which is the part 0. -/
def ExecClass.parts (lib : FftLibrary) : ExecClass → List Bool
  | .c2c => lib.complexOrReal false
  | .r2c => lib.complexOrReal true
  | .trig => if lib = .fftw then [false, false, false, false] else true :: lib.complexOrReal true

/-- The plan of a complex or shortened real executor used in a call: `cforward`, `cbackward`, `zforward`, `zbackward` (stock.h:474-501,
fftw.h:265-297, rocm.h:631-644), one plan for each precision (mkl.h:232-262, cuda.h:494-523, oneapi.h:451-477, 591-617), or `sforward`,
`dforward`, `sbackward`, `dbackward` (stock.h:578-604, fftw.h:438-470, mkl.h:392-425, cuda.h:657-727, rocm.h:765-828). -/
def FftLibrary.usedPart (lib : FftLibrary) (real double fwd : Bool) : Nat :=
  match lib, real with
  | .stock, false | .fftw, false | .rocfft, false => 2 * double.toNat + (!fwd).toNat
  | .mkl, false | .cufft, false | .onemkl, _ => double.toNat
  | _, true => double.toNat + 2 * (!fwd).toNat

/-- The part of an executor used in a call. -/
def ExecClass.used (lib : FftLibrary) (double fwd : Bool) : ExecClass → Nat
  | .c2c => lib.usedPart false double fwd
  | .r2c => lib.usedPart true double fwd
  | .trig => if lib = .fftw then double.toNat + 2 * (!fwd).toNat else lib.usedPart true double fwd + 1

/-- What the constructor puts into a member: a box, a reshape with or without a communicator of its own, an executor. -/
inductive MemberKind where
  | box
  | reshape (comm : Bool)
  | executor (c : ExecClass)
deriving DecidableEq, Repr

/-- The parts of the object behind a pointer, true if the constructor acquires them. -/
def MemberKind.parts (lib : FftLibrary) : MemberKind → List Bool
  | .box => []
  | .reshape comm => if comm then [true] else []
  | .executor c => c.parts lib

/-- The object behind a `std::unique_ptr`: the constructor call and the member it was made for, and which parts it has now. -/
structure HeldObj where
  plan : Nat
  member : Nat
  kind : MemberKind
  parts : List Bool

/-- The resources of the object except its memory. -/
def HeldObj.held (o : HeldObj) : List Resource :=
  ((List.range o.parts.length).filter fun j => o.parts[j]? = some true).map fun j => ⟨o.plan, o.member, some j⟩

def HeldObj.memory (o : HeldObj) : Resource := ⟨o.plan, o.member, none⟩

/-- A variable of the type `fft3d` or `fft3d_r2c`: the pointers, and the queue in `hmagma` (the number of the constructor call that made
it; `none` without MAGMA or on the CPU, where `magma_handle` is empty, magma.h:30-35). -/
structure HeldPlan where
  members : List (Option HeldObj)
  queue : Option Nat

/-- A reshape is acquired after its communicator (reshape3d.cpp:329-338, 487-497); the constructors of the others run in their memory. -/
def HeldObj.acquired (o : HeldObj) : List Resource :=
  match o.kind with
  | .reshape _ => o.held ++ [o.memory]
  | _ => o.memory :: o.held

/-- `delete`: `comm_free` (reshape3d.h:136, 229) or the members of the executor, the last one first, then the memory. -/
def HeldObj.released (o : HeldObj) : List Resource := o.held.reverse ++ [o.memory]

/-- The queue of MAGMA of the constructor call `p`. -/
def queueOf (p : Nat) : Resource := ⟨p, 13, none⟩

/-- The objects of a list of pointers. -/
def objectsOf (l : List (Option HeldObj)) : List HeldObj := l.filterMap id

/-- What the constructors put into the members `0, ..., 12` (`none`: null pointer). -/
def freshMembers (lib : FftLibrary) (p : Nat) (conf : List (Option MemberKind)) : List (Option HeldObj) :=
  conf.zipIdx.map fun x => x.1.map fun k => ⟨p, x.2, k, k.parts lib⟩

/-- The constructors (fft3d.h:574-623; fft3d_r2c.h:301-333): the boxes and the queue (magma.cpp:29-45) in the list of
initializers, `forward_shaper[i]` and `backward_shaper[3-i]` in turn, the executors. -/
def constructed (magma : Bool) (p : Nat) (members : List (Option HeldObj)) : List Resource :=
  let acq := fun m => match members[m]? with
    | some (some o) => o.acquired
    | _ => []
  [0, 1].flatMap acq ++ (if magma then [queueOf p] else []) ++ [2, 9, 3, 8, 4, 7, 5, 6, 10, 11, 12].flatMap acq

/-- The destructor (implicit): the members in the reverse order of their declaration; `~magma_handle` (magma.cpp:46-49). -/
def HeldPlan.destroyed (P : HeldPlan) : List Resource :=
  (match P.queue with
    | some p => [queueOf p]
    | none => []) ++
  (objectsOf P.members).reverse.flatMap HeldObj.released

/-- What is left in a variable after its value has been moved: null pointers, but the pointer in `magma_handle` is still there. -/
def HeldPlan.moved (P : HeldPlan) : HeldPlan := { P with members := P.members.map fun _ => none }

/-- The arguments of a call: as in `Act.call`, and the precision and whether the result is scaled. -/
structure CallArgs where
  mode : Mode
  fwd : Bool
  inplace : Nat → Bool
  batch : Nat
  double : Bool
  scaled : Bool

/-- A call uses the communicators of the reshapes of its direction, makes the plans it needs (`make_plan`: stock.h:533-535, fftw.h:326-335,
mkl.h:293-302, cuda.h:555-564, rocm.h:706-715) and uses them. -/
def HeldObj.called (lib : FftLibrary) (c : CallArgs) (o : HeldObj) : HeldObj × List ResEvent :=
  match o.kind with
  | .box => (o, [])
  | .reshape _ =>
    if decide (o.member < 6) = c.fwd then (o, o.held.map .use) else (o, [])
  | .executor x =>
    let j := x.used lib c.double c.fwd
    let r : Resource := ⟨o.plan, o.member, some j⟩
    if o.parts[j]? = some true then (o, [.use r])
    else ({ o with parts := o.parts.set j true }, [.acquire r, .use r])

/-- The members after a call, and what has happened (fft3d.h:371-420: reshapes, executors; the order among the members is that of the
declaration here; every member is used at most once, so the order does not matter to any resource). -/
def calledMembers (lib : FftLibrary) (c : CallArgs) : List (Option HeldObj) → List (Option HeldObj) × List ResEvent
  | [] => ([], [])
  | none :: l => (none :: (calledMembers lib c l).1, (calledMembers lib c l).2)
  | some o :: l => (some (o.called lib c).1 :: (calledMembers lib c l).1, (o.called lib c).2 ++ (calledMembers lib c l).2)

/-- The scaling with MAGMA uses the queue (fft3d.h:666-672, fft3d_r2c.h:355-360, magma.cpp:50-55). -/
def HeldPlan.scaled (P : HeldPlan) (c : CallArgs) : List ResEvent :=
  match P.queue with
  | some p => if c.scaled then [.use (queueOf p)] else []
  | none => []

/-- The variables of a rank and what has happened so far. -/
structure VarState where
  next : Nat
  vars : Nat → Option HeldPlan
  log : List ResEvent

def VarState.start : VarState := ⟨0, fun _ => none, []⟩

/-- The build and the plans: the library, whether a queue of MAGMA is made, and the members that the constructor call `p` makes. -/
structure VarBuild where
  lib : FftLibrary
  magma : Bool
  conf : Nat → List (Option MemberKind)

/-- A statement of the program.  `none`: undefined behaviour (a call dereferences the null pointers `pinbox`, `poutbox` of a plan that has
been moved away) or a variable that does not exist.  Assignment: `reset(u.release())` for each pointer, which gives the old object back;
with `v = w` nothing changes; `hmagma` is copied and its old queue is forgotten. -/
def VarState.step (B : VarBuild) (σ : VarState) : VarOp CallArgs → Option VarState
  | .make v =>
    if (σ.vars v).isSome then none
    else
      let ms := freshMembers B.lib σ.next (B.conf σ.next)
      some ⟨σ.next + 1, Function.update σ.vars v (some ⟨ms, if B.magma then some σ.next else none⟩),
        σ.log ++ (constructed B.magma σ.next ms).map .acquire⟩
  | .moveInit v w =>
    if (σ.vars v).isSome then none
    else match σ.vars w with
      | some P => some ⟨σ.next, Function.update (Function.update σ.vars v (some P)) w (some P.moved), σ.log⟩
      | none => none
  | .moveAssign v w =>
    match σ.vars v, σ.vars w with
    | some Q, some P =>
      if v = w then some σ
      else some ⟨σ.next, Function.update (Function.update σ.vars v (some P)) w (some P.moved),
        σ.log ++ ((objectsOf Q.members).flatMap HeldObj.released).map .release⟩
    | _, _ => none
  | .call v c =>
    match σ.vars v with
    | some P =>
      match P.members with
      | some _ :: some _ :: _ =>
        some ⟨σ.next, Function.update σ.vars v (some { P with members := (calledMembers B.lib c P.members).1 }),
          σ.log ++ (calledMembers B.lib c P.members).2 ++ P.scaled c⟩
      | _ => none
    | none => none
  | .destroy v =>
    match σ.vars v with
    | some P => some ⟨σ.next, Function.update σ.vars v none, σ.log ++ P.destroyed.map .release⟩
    | none => none

def VarState.run (B : VarBuild) : VarState → List (VarOp CallArgs) → Option VarState
  | σ, [] => some σ
  | σ, op :: ops => (σ.step B op).bind fun σ' => σ'.run B ops

/-! ## The plans of `Api` -/

/-- The objects of a reshape: `reshape3d_alltoall` and `reshape3d_alltoallv` own a communicator (reshape3d.h:136, 229). -/
def Shaper.memberKind : Option Shaper → Option MemberKind
  | none => none
  | some (.alltoall _ _) | some (.alltoallv _ _) => some (.reshape true)
  | some (.p2p _ _) | some (.transpose _) => some (.reshape false)

/-- The class of an executor; `trig`: the backend is one for sine and cosine transforms. -/
def Executor.memberKind (trig : Bool) : Option Executor → Option MemberKind
  | none => none
  | some (.r2c _ _) => some (.executor .r2c)
  | some _ => some (.executor (if trig then .trig else .c2c))

/-- The members of a plan on rank `r`. -/
def MpiPlan.memberKinds (P : MpiPlan) (r : Nat) : List (Option MemberKind) :=
  let trig := decide (P.obj.family ≠ .fourier)
  [some .box, some .box] ++
  ([(0 : Fin 4), 1, 2, 3].map fun j => Shaper.memberKind (shaperAt P.obj.fft.fwd r j)) ++
  ([(0 : Fin 4), 1, 2, 3].map fun j => Shaper.memberKind (shaperAt P.obj.fft.bwd r j)) ++
  [(0 : Fin 3), 1, 2].map fun k => Executor.memberKind trig (P.obj.fft.executors true r k)

/-- The build seen by rank `r`. -/
def planBuild (lib : FftLibrary) (magma : Bool) (plans : Nat → MpiPlan) (r : Nat) : VarBuild := ⟨lib, magma, fun p => (plans p).memberKinds r⟩

/-- The calls of MPI when a resource is given back: the communicator of a reshape. -/
def freeSteps (plans : Nat → MpiPlan) (r : Nat) (x : Resource) : List MpiStep :=
  match x.part with
  | none => []
  | some _ =>
    if h : 2 ≤ x.member ∧ x.member < 6 then
      Shaper.mpiFree (shaperKey x.plan true ⟨x.member - 2, by omega⟩) (shaperAt (plans x.plan).obj.fft.fwd r ⟨x.member - 2, by omega⟩)
    else if h : 6 ≤ x.member ∧ x.member < 10 then
      Shaper.mpiFree (shaperKey x.plan false ⟨x.member - 6, by omega⟩) (shaperAt (plans x.plan).obj.fft.bwd r ⟨x.member - 6, by omega⟩)
    else []

/-- The calls of MPI made by rank `r` in a statement: those of the constructor, of the transform with the plan in the variable (the
plan of its member 0), and of the destructors of the objects that are given back. -/
def VarOp.mpiSteps (n : Nat) (plans : Nat → MpiPlan) (r : Nat) (σ : VarState) : VarOp CallArgs → List MpiStep
  | .make _ => (plans σ.next).constructor n r
  | .moveInit _ _ => []
  | .moveAssign v w =>
    match σ.vars v with
    | some Q => if v = w then [] else ((objectsOf Q.members).flatMap HeldObj.released).flatMap (freeSteps plans r)
    | none => []
  | .call v c =>
    match σ.vars v with
    | some P => match P.members with
      | some o :: _ => (plans o.plan).call o.plan c.mode c.fwd (c.inplace r) c.batch r
      | _ => []
    | none => []
  | .destroy v =>
    match σ.vars v with
    | some P => P.destroyed.flatMap (freeSteps plans r)
    | none => []

/-- The calls of MPI made by rank `r` in a program. -/
def varSteps (n : Nat) (lib : FftLibrary) (magma : Bool) (plans : Nat → MpiPlan) (r : Nat) : VarState → List (VarOp CallArgs) → List MpiStep
  | _, [] => []
  | σ, op :: ops => op.mpiSteps n plans r σ ++
    match σ.step (planBuild lib magma plans r) op with
    | some σ' => varSteps n lib magma plans r σ' ops
    | none => []

end Verif
