import Verif.Async
import Verif.Reshape

/-!
# Reshapes on devices

The GPU branches of `/repo/src/heffte_reshape3d.cpp` (cited as `reshape3d.cpp`): the packing and unpacking loops put kernels
in a stream; MPI works on buffers of the device (GPU-aware) or on buffers of the host, with copies in the same stream.  The
functions here say what the host of each rank does (`collProg`, `p2pProg`) and which cells each operation moves
(`collMoves`, `p2pMoves`); `Verif.Async` says which executions are possible.

Simplifications:
* the kernels of one message (one per entry of the batch) are one operation; an execution interleaves their single moves in any order;
* the buffers on the host are allocated (`resize`) before the call;
* what the streams had to do before the call is an arbitrary operation on the memory of the rank (`pre`).
-/

namespace Verif
variable {α : Type}

/-- How MPI gets the data: from the device, or through buffers of the host filled by `gpu::transfer::unload`; `waits` says
that `unload` returns after the end of the copy.  With oneAPI it waits (`/repo/include/heffte_backend_oneapi.h:225-273`); with
CUDA and ROCm it calls `cudaMemcpyAsync`, `hipMemcpyAsync`
(`/repo/include/heffte_backend_cuda.h:228-285`, `heffte_backend_rocm.h:255-312`), for which it depends on the runtime: the
buffer of the host is ordinary memory of a `std::vector`. -/
inductive Transport where
  | aware
  | staged (waits : Bool)
deriving DecidableEq, Repr

/-- The data that MPI reads is complete when MPI is called. -/
def Transport.sound : Transport → Bool
  | .aware => true
  | .staged w => w

/-- `sync` after `unload` (see `Transport`). -/
def Transport.after {E : Type} : Transport → List (HostInstr E)
  | .staged true => [.sync]
  | _ => []

/-- Moves between two buffers of a rank. -/
def onRank (r : Nat) (db sb : DevBuf) (l : List (Int × Int)) : List (Loc × Loc) :=
  l.map fun x => (.mem r db x.1, .mem r sb x.2)

/-- Copy `n` entries between two buffers of a rank: `gpu::transfer::unload`, `load`. -/
def transfer (r : Nat) (db sb : DevBuf) (dst src n : Int) : List (Loc × Loc) :=
  (loop n).map fun t => (.mem r db (dst + t), .mem r sb (src + t))

/-! ## Collective calls -/

/-- Start of the receiving half of the workspace and numbers of entries copied from and to the device. -/
structure Staging where
  base : Int
  sendLen : Int
  recvLen : Int

/-- The sizes in `reshape3d_alltoall::apply_base` (reshape3d.cpp:243, 264-267, 279-280) and
`reshape3d_alltoallv::apply_base` (reshape3d.cpp:369, 394-397, 425-426). -/
def Shaper.staging (nb : Nat) : Option Shaper → Staging
  | some (.alltoall _ o) => ⟨nb * o.numEntries * o.packplan.length, nb * o.numEntries * o.packplan.length,
      nb * o.numEntries * o.packplan.length⟩
  | some (.alltoallv _ o) => ⟨nb * o.inSize, nb * o.inSize, nb * o.outSize⟩
  | _ => ⟨0, 0, 0⟩

/-- The operations of a collective reshape; `xf s r` is the transfer of MPI from rank `s` to rank `r`. -/
inductive CollOp where
  | pre (r : Nat) | pk (r : Nat) | ul (r : Nat) | xf (s r : Nat) | ld (r : Nat) | un (r : Nat)
deriving DecidableEq, Repr

/-- A collective reshape on all ranks: the jobs, whether the rank has a reshape object, the sizes of the copies, whether
source and destination are the same array. -/
structure Coll where
  jobs : List Job
  active : Nat → Bool
  staging : Nat → Staging
  transport : Transport
  inplace : Nat → Bool

/-- The array that is written. -/
def Coll.out (c : Coll) (r : Nat) : DevBuf := if c.inplace r then .src else .dst

/-- The job of a rank. -/
def Coll.job (c : Coll) (r : Nat) : Job := c.jobs[r]?.getD Job.idle

/-- The transfers of `MPI_Alltoall` or `MPI_Alltoallv` that concern rank `r`. -/
def Coll.transfers (c : Coll) (r : Nat) : List CollOp :=
  ((c.job r).sends.map fun m => .xf r m.peer) ++ ((c.job r).recvs.map fun m => .xf m.peer r)

/-- What the host does: `reshape3d_alltoall::apply_base`, `reshape3d_alltoallv::apply_base` (reshape3d.cpp:237-300, 365-443).
A rank without a reshape object does nothing. -/
def collProg (c : Coll) (r : Nat) : List (HostInstr CollOp) :=
  if c.active r then
    match c.transport with
    | .aware => [.launch (.pre r), .launch (.pk r), .sync, .call (c.transfers r), .launch (.un r)]
    | .staged w => [.launch (.pre r), .launch (.pk r), .sync, .launch (.ul r)] ++ (Transport.staged w).after ++
        [.call (c.transfers r), .launch (.ld r), .launch (.un r)]
  else [.launch (.pre r)]

/-- The buffer that MPI reads. -/
def Coll.from (c : Coll) : DevBuf := match c.transport with | .aware => .ws | .staged _ => .hs

/-- The cell of rank `r` that MPI writes for the address `a` of the workspace. -/
def Coll.into (c : Coll) (r : Nat) (a : Int) : Loc := match c.transport with
  | .aware => .mem r .ws a
  | .staged _ => .mem r .hr (a - (c.staging r).base)

/-- The moves of the operations: packing (reshape3d.cpp:249-259, 376-389), `unload` (266, 395), the transfers of MPI (271-275,
401-420), `load` (281, 426), unpacking (285-298, 429-442). -/
def collMoves (c : Coll) : CollOp → List (Loc × Loc)
  | .pre _ => []
  | .pk r => onRank r .ws .src (c.job r).packs
  | .ul r => match c.transport with
    | .aware => []
    | .staged _ => transfer r .hs .ws 0 0 (c.staging r).sendLen
  | .xf s r => ((c.job r).recvs.filter fun m => decide (m.peer = s)).flatMap fun m =>
      match matchSend c.jobs r m with
      | some q => (loop m.len).map fun t => (c.into r (m.addr + t), .mem s c.from (q.addr + t))
      | none => []
  | .ld r => match c.transport with
    | .aware => []
    | .staged _ => transfer r .ws .hr (c.staging r).base 0 (c.staging r).recvLen
  | .un r => onRank r (c.out r) .ws (c.job r).unpacks

/-- The pending work consists of a sequence of steps. -/
def CollOp.inOrder : CollOp → Bool
  | .pre _ => true
  | _ => false

/-- The steps of the operations; `pre r` is what the stream of rank `r` had to do before. -/
def collAct (c : Coll) (pre : Nat → List (Atom α)) : CollOp → List (Atom α)
  | .pre r => pre r
  | o => (collMoves c o).map fun x => Atom.move x.1 x.2

/-- All operations. -/
def collOps (n : Nat) : List CollOp :=
  (List.range n).map .pre ++ (List.range n).map .pk ++ (List.range n).map .ul ++
    ((List.range n).flatMap fun s => (List.range n).map (.xf s)) ++ (List.range n).map .ld ++ (List.range n).map .un

/-! ## Point-to-point -/

/-- The operations of a point-to-point reshape: the packing, `unload` and sending of the message number `i` of rank `r`, the
arrival, `load` and unpacking of the message number `i`, and the own part. -/
inductive P2pOp where
  | pre (r : Nat) | pk (r i : Nat) | ul (r i : Nat) | sd (r i : Nat) | rc (r i : Nat) | sp (r : Nat) | su (r : Nat)
  | ld (r i : Nat) | un (r i : Nat)
deriving DecidableEq, Repr

/-- A point-to-point reshape on all ranks: the number of ranks, the objects, the algorithm `p2p_plined`, the order in which `MPI_Waitany` reports the
messages. -/
structure P2p where
  n : Nat
  direct : Bool
  stride : Nat
  nb : Nat
  objs : Nat → PointToPoint
  plined : Bool
  done : Nat → List Nat
  transport : Transport
  inplace : Nat → Bool

/-- The array that is written. -/
def P2p.out (c : P2p) (r : Nat) : DevBuf := if c.inplace r then .src else .dst

/-- The messages that rank `r` sends with MPI. -/
def P2p.sends (c : P2p) (r : Nat) : List Entry := dropSelf (c.objs r).selfToSelf (c.objs r).packs

/-- The messages that rank `r` receives with MPI. -/
def P2p.recvs (c : P2p) (r : Nat) : List Entry := dropSelf (c.objs r).selfToSelf (c.objs r).unpacks

/-- Start of the send (reshape3d.cpp:656-673, 565-593): `MPI_Isend` for `p2p_plined`, otherwise `MPI_Send`. -/
def P2p.sendInstr (c : P2p) (r i : Nat) : HostInstr P2pOp := if c.plined then .post (.sd r i) else .call [.sd r i]

/-- One pass of the sending loop (reshape3d.cpp:653-674, 556-593). -/
def P2p.sendBlock (c : P2p) (r i : Nat) : List (HostInstr P2pOp) :=
  match c.transport with
  | .aware => [.launch (.pk r i), .sync, c.sendInstr r i]
  | .staged w => [.launch (.pk r i), .launch (.ul r i)] ++ (Transport.staged w).after ++ [c.sendInstr r i]

/-- One pass of the receiving loop (reshape3d.cpp:692-710, 613-628). -/
def P2p.recvBlock (c : P2p) (r i : Nat) : List (HostInstr P2pOp) :=
  match c.transport with
  | .aware => [.wait (.rc r i), .launch (.un r i)]
  | .staged _ => [.wait (.rc r i), .launch (.ld r i), .launch (.un r i)]

/-- What the host does: `reshape3d_pointtopoint::apply_base` (reshape3d.cpp:627-714) and `no_gpuaware_send_recv`
(reshape3d.cpp:533-625). -/
def p2pProg (c : P2p) (r : Nat) : List (HostInstr P2pOp) :=
  if r < c.n then
    [.launch (.pre r), .sync] ++ ((List.range (c.recvs r).length).map fun i => .post (.rc r i)) ++
    (List.range (c.sends r).length).flatMap (c.sendBlock r) ++
    (if (c.objs r).selfToSelf then [.launch (.sp r), .launch (.su r)] else []) ++
    (c.done r).flatMap (c.recvBlock r) ++
    (if c.plined then (List.range (c.sends r).length).map fun i => .wait (.sd r i) else [])
  else []

/-- The first address of the message number `i` in the send buffer: `offset` of the loop (reshape3d.cpp:652, 673, 560, 579);
without GPU-aware MPI and without `p2p_plined` every message starts at 0 (reshape3d.cpp:585-590). -/
def P2p.offset (c : P2p) (r i : Nat) : Int :=
  match c.transport, c.plined with
  | .staged _, false => 0
  | _, _ => ((p2pSends c.nb (c.sends r) 0)[i]?.map Msg.addr).getD 0

/-- The buffer that MPI reads. -/
def P2p.from (c : P2p) : DevBuf := match c.transport with | .aware => .ws | .staged _ => .hs

/-- The cell of rank `r` that MPI writes for the address `a` of the receive buffer. -/
def P2p.into (c : P2p) (r : Nat) (a : Int) : Loc := match c.transport with
  | .aware => .mem r .ws (c.nb * (c.objs r).inSize + a)
  | .staged _ => .mem r .hr a

/-- The moves of the operations. -/
def p2pMoves (c : P2p) : P2pOp → List (Loc × Loc)
  | .pre _ => []
  | .pk r i => match (c.sends r)[i]? with
    | some e => onRank r .ws .src ((List.range c.nb).flatMap fun (j : Nat) =>
        packMoves e.plan (j * (c.objs r).inSize + e.offset) (c.offset r i + j * e.size))
    | none => []
  | .ul r i => match c.transport, (c.sends r)[i]? with
    | .staged _, some e => transfer r .hs .ws (c.offset r i) (c.offset r i) (c.nb * e.size)
    | _, _ => []
  | .sd r i => match (c.sends r)[i]? with
    | some e => (loop (c.nb * e.size)).map fun t => (.net r e.proc t, .mem r c.from (c.offset r i + t))
    | none => []
  | .rc r i => match (c.recvs r)[i]?, (c.objs r).recvLoc[i]? with
    | some e, some loc => (loop (c.nb * e.size)).map fun t => (c.into r (c.nb * loc + t), .net e.proc r t)
    | _, _ => []
  | .sp r => onRank r .ws .src ((c.objs r).job c.direct c.stride c.nb []).selfPacks
  | .su r => onRank r (c.out r) .ws ((c.objs r).job c.direct c.stride c.nb []).unpacks
  | .ld r i => match c.transport, (c.recvs r)[i]?, (c.objs r).recvLoc[i]? with
    | .staged _, some e, some loc =>
      transfer r .ws .hr (c.nb * (c.objs r).inSize + c.nb * loc) (c.nb * loc) (c.nb * e.size)
    | _, _, _ => []
  | .un r i => onRank r (c.out r) .ws (p2pUnpackOne c.direct c.stride c.nb (c.objs r) i)

/-- The pending work consists of a sequence of steps. -/
def P2pOp.inOrder : P2pOp → Bool
  | .pre _ => true
  | _ => false

/-- The steps of the operations. -/
def p2pAct (c : P2p) (pre : Nat → List (Atom α)) : P2pOp → List (Atom α)
  | .pre r => pre r
  | o => (p2pMoves c o).map fun x => Atom.move x.1 x.2

/-- A message arrives after it has been sent: all have the tag 0 and there is one message between two ranks. -/
def P2p.msg (c : P2p) (e f : P2pOp) : Prop :=
  ∃ s i r k a b, e = .sd s i ∧ f = .rc r k ∧ (c.sends s)[i]? = some a ∧ (c.recvs r)[k]? = some b ∧ a.proc = r ∧ b.proc = s

/-- All operations. -/
def p2pOps (c : P2p) : List P2pOp :=
  (List.range c.n).map .pre ++
    ((List.range c.n).flatMap fun r => (List.range (c.sends r).length).flatMap fun i => [.pk r i, .ul r i, .sd r i]) ++
    ((List.range c.n).flatMap fun r => (List.range (c.recvs r).length).map fun i => .rc r i) ++
    ((List.range c.n).flatMap fun r => [.sp r, .su r]) ++
    ((List.range c.n).flatMap fun r => (c.done r).flatMap fun i => [.ld r i, .un r i])

/-- The guarantees of a point-to-point reshape. -/
abbrev P2p.before (c : P2p) : P2pOp → P2pOp → Prop := Guarantee (p2pProg c) c.msg

/-! ## Equal boxes -/

/-- The operations of a local transposition. -/
inductive LocalOp where
  | pre (r : Nat) | cp (r : Nat) | tr (r : Nat)
deriving DecidableEq, Repr

/-- A local transposition on all ranks; a rank without a plan has no reshape object. -/
structure Local where
  n : Nat
  stride : Nat
  nb : Nat
  plan : Nat → Option PackPlan
  inplace : Nat → Bool

/-- The array that is written. -/
def Local.out (c : Local) (r : Nat) : DevBuf := if c.inplace r then .src else .dst

/-- What the host does: `reshape3d_transpose::transpose` (`/repo/include/heffte_reshape3d.h:471-485`). -/
def localProg (c : Local) (r : Nat) : List (HostInstr LocalOp) :=
  if r < c.n then
    match c.plan r, c.inplace r with
    | some _, true => [.launch (.pre r), .launch (.cp r), .launch (.tr r)]
    | some _, false => [.launch (.pre r), .launch (.tr r)]
    | none, _ => [.launch (.pre r)]
  else []

/-- The number of entries of one array of a plan (`/repo/include/heffte_reshape3d.h:446`). -/
def PackPlan.entries (p : PackPlan) : Int := p.size 0 * p.size 1 * p.size 2

/-- The moves of the operations: the copy to the workspace and the transposition, from the source or from the workspace. -/
def localMoves (c : Local) : LocalOp → List (Loc × Loc)
  | .pre _ => []
  | .cp r => match c.plan r, c.inplace r with
    | some p, true => transfer r .ws .src 0 0 (c.nb * p.entries)
    | _, _ => []
  | .tr r => match c.plan r with
    | some p => onRank r (c.out r) (if c.inplace r then .ws else .src)
        ((List.range c.nb).flatMap fun (j : Nat) => unpackTranspose c.stride p (j * p.entries) (j * p.entries))
    | none => []

/-- The pending work consists of a sequence of steps. -/
def LocalOp.inOrder : LocalOp → Bool
  | .pre _ => true
  | _ => false

/-- The steps of the operations. -/
def localAct (c : Local) (pre : Nat → List (Atom α)) : LocalOp → List (Atom α)
  | .pre r => pre r
  | o => (localMoves c o).map fun x => Atom.move x.1 x.2

/-- All operations. -/
def localOps (n : Nat) : List LocalOp := (List.range n).map .pre ++ (List.range n).map .cp ++ (List.range n).map .tr

/-! ## From the reshape objects -/

/-- The settings of a call on devices. -/
structure DeviceCall where
  stride : Nat
  nb : Nat
  done : Nat → List Nat
  transport : Transport
  inplace : Nat → Bool

/-- The object of rank `r`. -/
def rankShaper (shs : List (Option Shaper)) (r : Nat) : Option Shaper := (shs[r]?).join

/-- The call with collective objects. -/
def collOf (k : DeviceCall) (shs : List (Option Shaper)) : Coll where
  jobs := shs.map (Shaper.job k.stride k.nb [])
  active := fun r => (rankShaper shs r).isSome
  staging := fun r => Shaper.staging k.nb (rankShaper shs r)
  transport := k.transport
  inplace := k.inplace

/-- The point-to-point object. -/
def Shaper.pointToPoint : Option Shaper → PointToPoint
  | some (.p2p _ o) => o
  | _ => ⟨0, 0, false, [], [], []⟩

/-- The packer of the object. -/
def Shaper.isDirect : Option Shaper → Bool
  | some (.alltoall d _) => d
  | some (.alltoallv d _) => d
  | some (.p2p d _) => d
  | _ => true

/-- The call with point-to-point objects. -/
def p2pOf (k : DeviceCall) (plined : Bool) (shs : List (Option Shaper)) : P2p where
  n := shs.length
  direct := Shaper.isDirect (rankShaper shs 0)
  stride := k.stride
  nb := k.nb
  objs := fun r => Shaper.pointToPoint (rankShaper shs r)
  plined := plined
  done := k.done
  transport := k.transport
  inplace := k.inplace

/-- The plan of a local transposition. -/
def Shaper.localPlan : Option Shaper → Option PackPlan
  | some (.transpose p) => some p
  | _ => none

/-- The call with local transpositions. -/
def localOf (k : DeviceCall) (shs : List (Option Shaper)) : Local where
  n := shs.length
  stride := k.stride
  nb := k.nb
  plan := fun r => Shaper.localPlan (rankShaper shs r)
  inplace := k.inplace

/-- `m'` is a possible result of the call with the memory `m` and the pending work `pre`: the result of one of the possible
executions. -/
def DeviceRuns (alg : Alg) (k : DeviceCall) (shs : List (Option Shaper)) (pre : Nat → List (Atom α)) (m m' : Store α) : Prop :=
  if shs.any fun s => (Shaper.localPlan s).isSome then
    ∃ l, Execution (Guarantee (localProg (localOf k shs)) fun _ _ => False) LocalOp.inOrder (localAct (localOf k shs) pre) (localOps shs.length) l ∧
      m' = runSteps (localAct (localOf k shs) pre) l m
  else match alg with
    | .alltoall | .alltoallv =>
      ∃ l, Execution (Guarantee (collProg (collOf k shs)) fun _ _ => False) CollOp.inOrder (collAct (collOf k shs) pre) (collOps shs.length) l ∧
        m' = runSteps (collAct (collOf k shs) pre) l m
    | .p2p | .p2pPlined =>
      ∃ l, Execution (p2pOf k (alg == .p2pPlined) shs).before P2pOp.inOrder (p2pAct (p2pOf k (alg == .p2pPlined) shs) pre)
          (p2pOps (p2pOf k (alg == .p2pPlined) shs)) l ∧
        m' = runSteps (p2pAct (p2pOf k (alg == .p2pPlined) shs) pre) l m

/-- All the moves of the call, without the pending work. -/
def deviceMoves (alg : Alg) (k : DeviceCall) (shs : List (Option Shaper)) : List (Loc × Loc) :=
  if shs.any fun s => (Shaper.localPlan s).isSome then (localOps shs.length).flatMap (localMoves (localOf k shs))
  else match alg with
    | .alltoall | .alltoallv => (collOps shs.length).flatMap (collMoves (collOf k shs))
    | .p2p | .p2pPlined => (p2pOps (p2pOf k (alg == .p2pPlined) shs)).flatMap (p2pMoves (p2pOf k (alg == .p2pPlined) shs))

/-- `max_send_size` (reshape3d.cpp:525-530). -/
def PointToPoint.maxSend (o : PointToPoint) (plined : Bool) : Int :=
  if plined then o.inSize else (o.packs.map Entry.size).foldl max 0

/-- The sizes of the buffers of the host: `cpu_send_buffer`, `cpu_recv_buffer` (reshape3d.cpp:265, 268, 394, 397, 540-541). -/
def hostSizes (alg : Alg) (nb : Nat) (sh : Option Shaper) : Int × Int :=
  match sh with
  | some (.p2p _ o) => (nb * o.maxSend (alg == .p2pPlined), nb * o.outSize)
  | _ => ((Shaper.staging nb sh).sendLen, (Shaper.staging nb sh).recvLen)

end Verif
