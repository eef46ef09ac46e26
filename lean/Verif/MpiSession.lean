import Verif.Mpi
import Verif.Api

/-!
# The calls of MPI made by the library

`/repo/src/heffte_reshape3d.cpp` is cited as `reshape3d.cpp`, `/repo/include/heffte_reshape3d.h` as `reshape3d.h`,
`/repo/include/heffte_utils.h` as `utils.h`, `/repo/include/heffte_geometry.h` as `geometry.h`, `/repo/include/heffte_fft3d.h` as `fft3d.h` and
`/repo/include/heffte_fft3d_r2c.h` as `fft3d_r2c.h`.

What one rank does in a constructor, a transform and a destructor, as far as MPI is concerned: the calls with their partners and the
numbers of entries.  Simplifications: the calls without communication (`MPI_Comm_rank`, `MPI_Comm_size`, `MPI_Comm_group`,
`MPI_Group_incl`, `MPI_Group_free`, `MPI_Wtime`) are left out; the type of the entries is left out; a communicator made by a
constructor is named by the number of the plan and the number of the reshape.
-/

namespace Verif

/-- The communicator given to the constructors. -/
def userComm (n : Nat) : Comm := ⟨none, List.range n⟩

/-- A collective call: enter and return. -/
def collSteps (c : Comm) (op : CollCall) : List MpiStep := [.enter c op, .leave c]

/-- `reshape3d_pointtopoint::apply_base` and `no_gpuaware_send_recv` (reshape3d.cpp:533-714): post all the receives, send (`MPI_Isend` with
`p2p_plined`, `MPI_Send` otherwise), wait for each receive, wait for all the sends (`p2p_plined`).  `requests` and `isends` have no
entry for the rank itself (reshape3d.cpp:512-513). -/
def PointToPoint.mpiSteps (plined : Bool) (nb : Nat) (o : PointToPoint) : List MpiStep :=
  let recvs := dropSelf o.selfToSelf o.unpacks
  let sends := dropSelf o.selfToSelf o.packs
  recvs.map (fun e => .irecv e.proc (nb * e.size)) ++
  (if plined then sends.map fun e => .isend e.proc (nb * e.size)
    else sends.flatMap fun e => [.isend e.proc (nb * e.size), .endSend]) ++
  recvs.map (fun _ => .waitany) ++
  (if plined then [.waitall] else [])

/-- The group of the communicator of a reshape, no rank without communicator. -/
def Shaper.group : Option Shaper → List Nat
  | some (.alltoall _ o) => o.group
  | some (.alltoallv _ o) => o.group
  | _ => []

/-- `apply` of a reshape: `MPI_Alltoall` (reshape3d.cpp:270-274), `MPI_Alltoallv` (reshape3d.cpp:398-419; the counts are multiplied with the
batch size), messages, or no communication (`reshape3d_transpose`, reshape3d.h:452-485). -/
def Shaper.mpiApply (alg : Alg) (key : Nat × Nat) (nb : Nat) : Option Shaper → List MpiStep
  | some (.alltoall _ o) => collSteps ⟨some key, o.group⟩ (.alltoall (nb * o.numEntries))
  | some (.alltoallv _ o) =>
    collSteps ⟨some key, o.group⟩ (.alltoallv (o.send.map fun row => row.count * nb) (o.recv.map fun row => row.count * nb))
  | some (.p2p _ o) => o.mpiSteps (decide (alg = .p2pPlined)) nb
  | some (.transpose _) | none => []

/-- `make_reshape3d` (reshape3d.h:503-560): no communication if the boxes match or with point-to-point messages; otherwise every rank
calls `MPI_Comm_create` on the communicator of the user, also a rank that is in no group (reshape3d.cpp:329, 487; utils.h:158-168).
`sh` is the object of this rank. -/
def mpiMake (n : Nat) (alg : Alg) (bin bout : List Box) (sh : Option Shaper) : List MpiStep :=
  if boxesMatch bin bout then []
  else match alg with
    | .alltoall | .alltoallv => collSteps (userComm n) (.create (Shaper.group sh))
    | .p2p | .p2pPlined => []

/-- The destructors of the reshapes (reshape3d.h:136, 229; utils.h:181-184): `MPI_Comm_free`. -/
def Shaper.mpiFree (key : Nat × Nat) : Option Shaper → List MpiStep
  | some (.alltoall _ o) => collSteps ⟨some key, o.group⟩ .free
  | some (.alltoallv _ o) => collSteps ⟨some key, o.group⟩ .free
  | some (.p2p _ _) | some (.transpose _) | none => []

/-- A plan: the algorithm of its options and the object on all the ranks. -/
structure MpiPlan where
  alg : Alg
  obj : Object

/-- The name of the communicator of `forward_shaper[j]` or `backward_shaper[j]` of the plan `i`. -/
def shaperKey (i : Nat) (fwd : Bool) (j : Fin 4) : Nat × Nat := (i, if fwd then j.val else 4 + j.val)

/-- The shapes of the stage `j` of a plan (plan_logic.h:278-280). -/
def Plan.stageBoxes (p : Plan) : Fin 4 → List Box × List Box
  | 0 => (p.in0, p.out0)
  | 1 => (p.in1, p.out1)
  | 2 => (p.in2, p.out2)
  | 3 => (p.in3, p.out3)

/-- The constructors (fft3d.h:270-275, 599-603; fft3d_r2c.h:76-82, 325-329): gather the boxes of all the ranks (geometry.h:709-711), make
`forward_shaper[i]` and `backward_shaper[3-i]` for `i = 0, ..., 3`. -/
def MpiPlan.constructor (n : Nat) (P : MpiPlan) (r : Nat) : List MpiStep :=
  let p := P.obj.plan
  collSteps (userComm n) .allgather ++
  [(0 : Fin 4), 1, 2, 3].flatMap fun j =>
    mpiMake n P.alg (p.stageBoxes j).1 (p.stageBoxes j).2 (shaperAt P.obj.fft.fwd r j) ++
    mpiMake n P.alg (p.stageBoxes j).2 (p.stageBoxes j).1 (shaperAt P.obj.fft.bwd r (3 - j))

/-- The destructor: the members are destroyed in the reverse order of their declaration (fft3d.h:682-683, fft3d_r2c.h:370-371), the
entries of an array from the last to the first. -/
def MpiPlan.destructor (P : MpiPlan) (i r : Nat) : List MpiStep :=
  ([(3 : Fin 4), 2, 1, 0].flatMap fun j => Shaper.mpiFree (shaperKey i false j) (shaperAt P.obj.fft.bwd r j)) ++
  [(3 : Fin 4), 2, 1, 0].flatMap fun j => Shaper.mpiFree (shaperKey i true j) (shaperAt P.obj.fft.fwd r j)

/-- The operations of rank `r` in a transform. -/
def MpiPlan.instrs (P : MpiPlan) (mode : Mode) (fwd inplace : Bool) (r : Nat) : Res (List Instr) :=
  program mode (patternOf (shaperAt (P.obj.fft.shapers fwd) r) (P.obj.fft.executors fwd r) inplace)

/-- `forward` and `backward`: the reshapes in the order of `compute_transform`; the rest has no communication.  Nothing is said about
a rank with undefined behaviour. -/
def MpiPlan.call (P : MpiPlan) (i : Nat) (mode : Mode) (fwd inplace : Bool) (nb : Nat) (r : Nat) : List MpiStep :=
  match P.instrs mode fwd inplace r with
  | .ok l => l.flatMap fun c => match c with
    | .reshape j _ _ => Shaper.mpiApply P.alg (shaperKey i fwd j) nb (shaperAt (P.obj.fft.shapers fwd) r j)
    | _ => []
  | .error _ => []

/-- What the program of the user does: make the plan `i`, call it, destroy it, or communicate in its own way. -/
inductive Act where
  | make (i : Nat)
  | call (i : Nat) (mode : Mode) (fwd : Bool) (inplace : Nat → Bool) (nb : Nat)
  | destroy (i : Nat)
  | own (steps : Nat → List MpiStep)

/-- The calls of MPI made by rank `r`. -/
def Act.steps (n : Nat) (plans : Nat → MpiPlan) (r : Nat) : Act → List MpiStep
  | .make i => (plans i).constructor n r
  | .call i mode fwd inplace nb => (plans i).call i mode fwd (inplace r) nb r
  | .destroy i => (plans i).destructor i r
  | .own steps => steps r

/-- The calls of MPI made by rank `r` in a sequence of actions that is the same on all the ranks; labelled with the number of the
action. -/
def sessionSteps (n : Nat) (plans : Nat → MpiPlan) (acts : List Act) (r : Nat) : List (Nat × MpiStep) :=
  acts.zipIdx.flatMap fun x => (x.1.steps n plans r).map fun s => (x.2, s)

end Verif
