import Verif.Geometry
import Verif.Plan
import Verif.Pack

/-!
# Reshape operations

`/repo/src/heffte_reshape3d.cpp` is cited as `reshape3d.cpp` and `/repo/include/heffte_reshape3d.h` as `reshape3d.h`.
Simplifications:
* the number of ranks of the communicator is the number of boxes (`fft3d` has one box per rank);
* offsets, sizes and counts are mathematical integers (`int` in the code);
* the parallel vectors `proc`, `offset`, `sizes`, `plans` are one list of records;
* the GPU branches (`Heffte_ENABLE_GPU`) are in `Verif.GpuReshape`;
* `marked[p]` of `a2a_group` is true exactly when `p` has been pushed to `result`, so only `result` is kept.
What a rank does in one call of `apply_base` is a `Job`: the element moves of its packing and unpacking loops and the
messages passed to MPI.
-/

namespace Verif

/-- `count_collisions` (reshape3d.cpp:39-42). -/
def countCollisions (boxes : List Box) (reference : Box) : Nat := boxes.countP fun b => !(reference.collide b).empty

/-- One entry of the vectors filled by the functions `compute_overlap_map_*`. -/
structure Entry where
  proc : Nat
  offset : Int
  size : Int
  plan : PackPlan
deriving DecidableEq, Repr

/-- The offset of the overlap in the local array (reshape3d.cpp:134-136, 170-172, 188-190). -/
def overlapOffset (source overlap : Box) : Int :=
  (overlap.low (source.order 2) - source.low (source.order 2)) * source.osize 0 * source.osize 1
    + (overlap.low (source.order 1) - source.low (source.order 1)) * source.osize 0
    + (overlap.low (source.order 0) - source.low (source.order 0))

/-- The plan without a transpose (reshape3d.cpp:138-140, 166-168). -/
def directPlan (source overlap : Box) : PackPlan :=
  ⟨⟨overlap.osize 0, overlap.osize 1, overlap.osize 2⟩, source.osize 0, source.osize 1 * source.osize 0, 0, 0, ⟨0, 0, 0⟩⟩

/-- The map between the directions (reshape3d.cpp:154-158, 193-197): the last matching `k` is kept, `-1` without
a match. -/
def orderMap (dest src : A3 (Fin 3)) : A3 Int :=
  .of fun j => dims.foldl (fun m k => if dest k = src j then (k.val : Int) else m) (-1)

/-- The plan with a transpose (reshape3d.cpp:160-164, 199-203); `src` is the order of the box the data comes from. -/
def transposePlan (dest overlap : Box) (src : A3 (Fin 3)) : PackPlan :=
  ⟨⟨overlap.osize 0, overlap.osize 1, overlap.osize 2⟩, dest.osize 0, dest.osize 1 * dest.osize 0,
    overlap.size (src 0), overlap.size (src 0) * overlap.size (src 1), orderMap dest.order src⟩

/-- `compute_overlap_map_direct_pack` (reshape3d.cpp:125-144). The index `iproc` is always in range. -/
def overlapMapDirect (me : Nat) (source : Box) (boxes : List Box) : List Entry :=
  (List.range boxes.length).filterMap fun i =>
    let iproc := (i + me + 1) % boxes.length
    (boxes[iproc]?).bind fun b =>
      let overlap := source.collide b
      if overlap.empty then none
      else some ⟨iproc, overlapOffset source overlap, overlap.count, directPlan source overlap⟩

/-- `compute_overlap_map_transpose_pack` (reshape3d.cpp:179-206). -/
def overlapMapTranspose (me : Nat) (destination : Box) (boxes : List Box) : List Entry :=
  (List.range boxes.length).filterMap fun i =>
    let iproc := (i + me + 1) % boxes.length
    (boxes[iproc]?).bind fun b =>
      let overlap := destination.collide b
      if overlap.empty then none
      else some ⟨iproc, overlapOffset destination overlap, overlap.count, transposePlan destination overlap b.order⟩

/-- `compute_overlap_map_all2all_pack` (reshape3d.cpp:145-177): offset and plan for each member of the group. -/
def overlapMapAll2all (transpose : Bool) (group : List Nat) (target : Box) (boxes : List Box) : List (Int × PackPlan) :=
  group.filterMap fun iproc => (boxes[iproc]?).map fun b =>
    let overlap := target.collide b
    if overlap.empty then (0, ⟨⟨0, 0, 0⟩, 0, 0, 0, 0, ⟨0, 0, 0⟩⟩)
    else (overlapOffset target overlap,
      if transpose then transposePlan target overlap b.order else directPlan target overlap)

/-- `not a[i].collide(b[j]).empty()`. -/
def touch (a b : List Box) (i j : Nat) : Bool :=
  match a[i]?, b[j]? with
  | some x, some y => !(x.collide y).empty
  | _, _ => false

/-- The seeds of `a2a_group`, without repetitions (reshape3d.cpp:68-77). -/
def a2aSeeds (procs : List Nat) : List Nat := procs.foldl (fun r p => if p ∈ r then r else r ++ [p]) []

/-- One pass of the inner loop of `a2a_group` for `iproc` and `j` (reshape3d.cpp:91-98). -/
def a2aVisit (bin bout : List Box) (iproc : Nat) (r : List Nat) (j : Nat) : List Nat :=
  let r := if j ∉ r ∧ touch bin bout iproc j = true then r ++ [j] else r
  if j ∉ r ∧ touch bout bin iproc j = true then r ++ [j] else r

/-- One sweep of the `while` loop of `a2a_group` over the first `num_current` ranks of the result
(reshape3d.cpp:86-100). -/
def a2aSweep (bin bout : List Box) (r : List Nat) : List Nat :=
  r.foldl (fun r' iproc => (List.range bin.length).foldl (a2aVisit bin bout iproc) r') r

/-- The `while` loop of `a2a_group` (reshape3d.cpp:84-102); running out of fuel stands for a loop that does not end,
which is proved not to happen. -/
def a2aLoop (bin bout : List Box) : Nat → List Nat → Res (List Nat)
  | 0, _ => .error .ub
  | fuel + 1, r =>
    let r' := a2aSweep bin bout r
    if r.length = r'.length then .ok r' else a2aLoop bin bout fuel r'

/-- `a2a_group` (reshape3d.cpp:60-110). -/
def a2aGroup (sendProc recvProc : List Nat) (bin bout : List Box) : Res (List Nat) := do
  let r ← a2aLoop bin bout (bin.length + 1) (a2aSeeds (sendProc ++ recvProc))
  .ok ((List.range bin.length).filter fun i => decide (i ∈ r))

/-- `get_max_size` (reshape3d.cpp:112-119). -/
def getMaxSize (group : List Nat) (bin bout : List Box) : Int :=
  group.foldl (fun m isend => group.foldl (fun m irecv =>
    match bin[isend]?, bout[irecv]? with
    | some a, some b => max m (a.collide b).count
    | _, _ => m) m) 0

/-- A message as seen by one rank: the other rank, the first address in the workspace, the number of entries. -/
structure Msg where
  peer : Nat
  addr : Int
  len : Int
deriving DecidableEq, Repr

/-- What one rank does in `apply_base`: pack from the source into the workspace, exchange messages, pack the message
to itself (point-to-point only), unpack from the workspace into the destination.  `group` is the list of ranks of the
communicator of a collective call. -/
structure Job where
  group : List Nat
  packs : List (Int × Int)
  sends : List Msg
  recvs : List Msg
  selfPacks : List (Int × Int)
  unpacks : List (Int × Int)

/-- A rank without a reshape object does nothing. -/
def Job.idle : Job := ⟨[], [], [], [], [], []⟩

/-- The unpack operation selected by the packer template parameter. -/
def unpackWith (direct : Bool) (stride : Nat) (p : PackPlan) (buf data : Int) : List (Int × Int) :=
  if direct then unpackDirect p buf data else unpackTranspose stride p buf data

/-! ## alltoall -/

/-- `reshape3d_alltoall` (reshape3d.h:132-186). -/
structure AllToAll where
  inSize : Int
  outSize : Int
  group : List Nat
  packplan : List (Int × PackPlan)
  unpackplan : List (Int × PackPlan)
  numEntries : Int

/-- `make_reshape3d_alltoall` (reshape3d.cpp:302-341); `direct` says that the packer is `direct_packer`. -/
def makeAllToAll (direct : Bool) (bin bout : List Box) (me : Nat) : Res (Option AllToAll) :=
  match bin[me]?, bout[me]? with
  | some inbox, some outbox => do
    let group ← a2aGroup (if inbox.empty then [] else [me]) (if outbox.empty then [] else [me]) bin bout
    if group = [] then .ok none
    else .ok (some ⟨inbox.count, outbox.count, group, overlapMapAll2all false group inbox bout,
      overlapMapAll2all (!direct) group outbox bin, getMaxSize group bin bout⟩)
  | _, _ => .error .ub

/-- The packing loop of `reshape3d_alltoall::apply_base` (reshape3d.cpp:249-259). -/
def allToAllPack (nb : Nat) (inSize numEntries : Int) : List (Int × PackPlan) → Int → List (Int × Int)
  | [], _ => []
  | e :: t, offset =>
    if e.2.size 0 > 0 then
      ((List.range nb).flatMap fun (j : Nat) => packMoves e.2 (e.1 + j * inSize) (offset + j * numEntries)) ++
        allToAllPack nb inSize numEntries t (offset + nb * numEntries)
    else allToAllPack nb inSize numEntries t (offset + nb * numEntries)

/-- The unpacking loop of `reshape3d_alltoall::apply_base` (reshape3d.cpp:285-298). -/
def allToAllUnpack (direct : Bool) (stride nb : Nat) (outSize numEntries base : Int) :
    List (Int × PackPlan) → Int → List (Int × Int)
  | [], _ => []
  | e :: t, offset =>
    if e.2.size 0 > 0 then
      ((List.range nb).flatMap fun (j : Nat) =>
        unpackWith direct stride e.2 (base + (offset + j * numEntries)) (e.1 + j * outSize)) ++
        allToAllUnpack direct stride nb outSize numEntries base t (offset + nb * numEntries)
    else allToAllUnpack direct stride nb outSize numEntries base t (offset + nb * numEntries)

/-- `reshape3d_alltoall::apply_base` (reshape3d.cpp:237-300). `MPI_Alltoall` sends the `i`-th block of
`batch_size * num_entries` entries to the `i`-th rank of the group. -/
def AllToAll.job (o : AllToAll) (direct : Bool) (stride nb : Nat) : Job :=
  let base := nb * o.numEntries * o.packplan.length
  { group := o.group
    packs := allToAllPack nb o.inSize o.numEntries o.packplan 0
    sends := o.group.zipIdx.map fun m => ⟨m.1, m.2 * (nb * o.numEntries), nb * o.numEntries⟩
    recvs := o.group.zipIdx.map fun m => ⟨m.1, base + m.2 * (nb * o.numEntries), nb * o.numEntries⟩
    selfPacks := []
    unpacks := allToAllUnpack direct stride nb o.outSize o.numEntries base o.unpackplan 0 }

/-- `reshape3d_alltoall::size_workspace` (reshape3d.h:163). -/
def AllToAll.sizeWorkspace (o : AllToAll) : Int := 2 * o.numEntries * o.packplan.length

/-! ## alltoallv -/

/-- One row of `iotripple` (reshape3d.h:278-296): count, displacement, index into the entries (`none` for -1). -/
structure IoRow where
  count : Int
  displ : Int
  map : Option Nat
deriving DecidableEq, Repr

/-- The inner loop of the constructor of `iotripple` for one member of the group (reshape3d.h:285-292). -/
def ioInner (rank : Nat) (entries : List Entry) (offset : Int) : IoRow × Int :=
  entries.zipIdx.foldl (fun (st : IoRow × Int) e =>
    if e.1.proc ≠ rank then st else (⟨e.1.size, st.2, some e.2⟩, st.2 + e.1.size)) (⟨0, 0, none⟩, offset)

/-- The constructor of `iotripple` (reshape3d.h:280-294). -/
def ioRows (entries : List Entry) : List Nat → Int → List IoRow
  | [], _ => []
  | rank :: t, offset =>
    let s := ioInner rank entries offset
    s.1 :: ioRows entries t s.2

/-- `reshape3d_alltoallv` (reshape3d.h:225-301). -/
structure AllToAllv where
  inSize : Int
  outSize : Int
  group : List Nat
  packs : List Entry
  unpacks : List Entry
  send : List IoRow
  recv : List IoRow

/-- The plans of `make_reshape3d_alltoallv` and `make_reshape3d_pointtopoint` (reshape3d.cpp:464-483, 736-755). -/
def sendEntries (bout : List Box) (me : Nat) (inbox : Box) : List Entry :=
  if countCollisions bout inbox > 0 then overlapMapDirect me inbox bout else []

/-- See `sendEntries`. -/
def recvEntries (direct : Bool) (bin : List Box) (me : Nat) (outbox : Box) : List Entry :=
  if countCollisions bin outbox > 0 then
    if direct then overlapMapDirect me outbox bin else overlapMapTranspose me outbox bin
  else []

/-- `make_reshape3d_alltoallv` (reshape3d.cpp:445-499). -/
def makeAllToAllv (direct : Bool) (bin bout : List Box) (me : Nat) : Res (Option AllToAllv) :=
  match bin[me]?, bout[me]? with
  | some inbox, some outbox => do
    let packs := sendEntries bout me inbox
    let unpacks := recvEntries direct bin me outbox
    let group ← a2aGroup (packs.map Entry.proc) (unpacks.map Entry.proc) bin bout
    if group = [] then .ok none
    else .ok (some ⟨inbox.count, outbox.count, group, packs, unpacks, ioRows packs group 0, ioRows unpacks group 0⟩)
  | _, _ => .error .ub

/-- The packing loop of `reshape3d_alltoallv::apply_base` (reshape3d.cpp:376-389). -/
def allToAllvPack (nb : Nat) (inSize : Int) (entries : List Entry) : List IoRow → Int → List (Int × Int)
  | [], _ => []
  | row :: t, offset =>
    match row.map.bind (entries[·]?) with
    | none => allToAllvPack nb inSize entries t offset
    | some e =>
      ((List.range nb).flatMap fun (j : Nat) => packMoves e.plan (e.offset + j * inSize) (offset + j * e.size)) ++
        allToAllvPack nb inSize entries t (offset + nb * e.size)

/-- The unpacking loop of `reshape3d_alltoallv::apply_base` (reshape3d.cpp:429-442). -/
def allToAllvUnpack (direct : Bool) (stride nb : Nat) (outSize base : Int) (entries : List Entry) :
    List IoRow → Int → List (Int × Int)
  | [], _ => []
  | row :: t, offset =>
    match row.map.bind (entries[·]?) with
    | none => allToAllvUnpack direct stride nb outSize base entries t offset
    | some e =>
      ((List.range nb).flatMap fun (j : Nat) =>
        unpackWith direct stride e.plan (base + (offset + j * e.size)) (e.offset + j * outSize)) ++
        allToAllvUnpack direct stride nb outSize base entries t (offset + nb * e.size)

/-- `reshape3d_alltoallv::apply_base` (reshape3d.cpp:365-443). The branch for `batch_size == 1` passes the same
numbers to MPI as the other branch. -/
def AllToAllv.job (o : AllToAllv) (direct : Bool) (stride nb : Nat) : Job :=
  let base := nb * o.inSize
  { group := o.group
    packs := allToAllvPack nb o.inSize o.packs o.send 0
    sends := (o.group.zip o.send).map fun m => ⟨m.1, m.2.displ * nb, m.2.count * nb⟩
    recvs := (o.group.zip o.recv).map fun m => ⟨m.1, base + m.2.displ * nb, m.2.count * nb⟩
    selfPacks := []
    unpacks := allToAllvUnpack direct stride nb o.outSize base o.unpacks o.recv 0 }

/-! ## Point-to-point -/

/-- `reshape3d_pointtopoint` (reshape3d.h:340-409). -/
structure PointToPoint where
  inSize : Int
  outSize : Int
  selfToSelf : Bool
  packs : List Entry
  unpacks : List Entry
  recvLoc : List Int

/-- The vector `recv_loc` (reshape3d.cpp:757-760). -/
def recvLocs : List Int → Int → List Int
  | [], loc => [loc]
  | [_], loc => [loc]
  | s :: t, loc => loc :: recvLocs t (loc + s)

/-- `make_reshape3d_pointtopoint` with the constructor (reshape3d.cpp:716-769, 501-531). -/
def makePointToPoint (direct : Bool) (bin bout : List Box) (me : Nat) : Res PointToPoint :=
  match bin[me]?, bout[me]? with
  | some inbox, some outbox =>
    let packs := sendEntries bout me inbox
    let unpacks := recvEntries direct bin me outbox
    .ok ⟨inbox.count, outbox.count, decide ((unpacks.getLast?.map Entry.proc) = some me), packs, unpacks,
      recvLocs (unpacks.map Entry.size) 0⟩
  | _, _ => .error .ub

/-- The entries that go through MPI: all but the last one with self-to-self (reshape3d.cpp:512-513, 653). -/
def dropSelf (selfToSelf : Bool) (l : List Entry) : List Entry := if selfToSelf then l.dropLast else l

/-- The sending loop of `reshape3d_pointtopoint::apply_base` (reshape3d.cpp:651-674): packing moves. -/
def p2pPack (nb : Nat) (inSize : Int) : List Entry → Int → List (Int × Int)
  | [], _ => []
  | e :: t, offset =>
    ((List.range nb).flatMap fun (j : Nat) => packMoves e.plan (j * inSize + e.offset) (offset + j * e.size)) ++
      p2pPack nb inSize t (offset + nb * e.size)

/-- The sending loop (reshape3d.cpp:651-674): messages. -/
def p2pSends (nb : Nat) : List Entry → Int → List Msg
  | [], _ => []
  | e :: t, offset => ⟨e.proc, offset, nb * e.size⟩ :: p2pSends nb t (offset + nb * e.size)

/-- Unpacking of the message number `i` (reshape3d.cpp:704-709). -/
def p2pUnpackOne (direct : Bool) (stride nb : Nat) (o : PointToPoint) (i : Nat) : List (Int × Int) :=
  match o.unpacks[i]?, o.recvLoc[i]? with
  | some e, some loc => (List.range nb).flatMap fun (j : Nat) =>
      unpackWith direct stride e.plan (nb * o.inSize + nb * loc + j * e.size) (j * o.outSize + e.offset)
  | _, _ => []

/-- `reshape3d_pointtopoint::apply_base` (reshape3d.cpp:627-714). `done` is the order in which `MPI_Waitany` reports
the receive requests. -/
def PointToPoint.job (o : PointToPoint) (direct : Bool) (stride nb : Nat) (done : List Nat) : Job :=
  let base := nb * o.inSize
  let recvs := (dropSelf o.selfToSelf o.unpacks).zip o.recvLoc
  { group := []
    packs := p2pPack nb o.inSize (dropSelf o.selfToSelf o.packs) 0
    sends := p2pSends nb (dropSelf o.selfToSelf o.packs) 0
    recvs := recvs.map fun m => ⟨m.1.proc, base + nb * m.2, nb * m.1.size⟩
    selfPacks :=
      if o.selfToSelf then
        match o.packs.getLast?, o.recvLoc.getLast? with
        | some e, some loc => (List.range nb).flatMap fun (j : Nat) =>
            packMoves e.plan (e.offset + j * o.inSize) (base + nb * loc + j * e.size)
        | _, _ => []
      else []
    unpacks :=
      (if o.selfToSelf then
        match o.packs.getLast?, o.unpacks.getLast?, o.recvLoc.getLast? with
        | some e, some u, some loc => (List.range nb).flatMap fun (j : Nat) =>
            unpackWith direct stride u.plan (base + nb * loc + j * e.size) (j * o.outSize + u.offset)
        | _, _, _ => []
      else []) ++ done.flatMap (p2pUnpackOne direct stride nb o) }

/-! ## Message passing -/

/-- MPI semantics: the message `m` that rank `me` receives is the one send of the peer addressed to `me`; it must be
unique and have the same length. -/
def matchSend (jobs : List Job) (me : Nat) (m : Msg) : Option Msg :=
  match (jobs[m.peer]?).map fun j => j.sends.filter fun s => decide (s.peer = me) with
  | some [s] => if s.len = m.len then some s else none
  | _ => none

/-- The messages of one rank can be delivered: each receive has its send, each send has its receive, and the ranks of
a collective call agree about the group. -/
def deliverable (jobs : List Job) (me : Nat) (job : Job) : Bool :=
  (job.recvs.all fun m => (matchSend jobs me m).isSome) &&
  (job.sends.all fun s => match jobs[s.peer]? with
    | some j => decide ((j.recvs.filter fun m => decide (m.peer = me)).length = 1)
    | none => false) &&
  (job.group.all fun r => match jobs[r]? with
    | some j => decide (j.group = job.group)
    | none => false)

variable {α : Type}

/-- The entries written by the receives of rank `me`, given the workspaces of all ranks after packing. -/
def deliveries (jobs : List Job) (wss : List (List α)) (me : Nat) (job : Job) : List (Int × Option α) :=
  job.recvs.flatMap fun m =>
    match matchSend jobs me m with
    | some s => (loop m.len).map fun t => (m.addr + t, (wss[m.peer]?).bind fun ws => rd ws (s.addr + t))
    | none => []

/-- Apply `f` to each element with its index; stops at the first error. -/
def mapRes {β γ : Type} (f : Nat → β → Res γ) : Nat → List β → Res (List γ)
  | _, [] => .ok []
  | i, b :: t =>
    match f i b with
    | .error e => .error e
    | .ok c =>
      match mapRes f (i + 1) t with
      | .error e => .error e
      | .ok cs => .ok (c :: cs)

/-- The memory of one rank: source, destination, workspace. -/
structure Arrays (α : Type) where
  src : List α
  dst : List α
  ws : List α

/-- Run a reshape on all ranks and return the destinations.  Messages that cannot be delivered (mismatched counts,
missing partner, different groups) give `ub`.  All the packing on a rank precedes its unpacking in program order, so
`src = dst` is allowed. -/
def runJobs (jobs : List Job) (mems : List (Arrays α)) : Res (List (List α)) := do
  let packed ← mapRes (fun _ (x : Job × Arrays α) => copyMoves x.1.packs x.2.src x.2.ws) 0 (jobs.zip mems)
  if !((jobs.zipIdx.all fun x => deliverable jobs x.2 x.1)) then .error .ub else
  let received ← mapRes (fun i (x : Job × List α) => writeAll (deliveries jobs packed i x.1) x.2) 0 (jobs.zip packed)
  let wss ← mapRes (fun _ (x : (Job × Arrays α) × List α) => copyMoves x.1.1.selfPacks x.1.2.src x.2) 0
    ((jobs.zip mems).zip received)
  mapRes (fun _ (x : (Job × Arrays α) × List α) => copyMoves x.1.1.unpacks x.2 x.1.2.dst) 0 ((jobs.zip mems).zip wss)

/-! ## make_reshape3d -/

/-- The reshape objects. -/
inductive Shaper where
  | alltoall (direct : Bool) (o : AllToAll)
  | alltoallv (direct : Bool) (o : AllToAllv)
  | p2p (direct : Bool) (o : PointToPoint)
  | transpose (plan : PackPlan)

/-- `match` for lists of boxes (geometry.h:246-253). -/
def boxesMatch : List Box → List Box → Bool
  | [], [] => true
  | a :: s, b :: t => a.sameBounds b && boxesMatch s t
  | _, _ => false

/-- `make_reshape3d` (reshape3d.h:503-560); `none` is a null pointer. -/
def makeReshape (alg : Alg) (bin bout : List Box) (me : Nat) : Res (Option Shaper) :=
  match bin.head?, bout.head? with
  | some i0, some o0 =>
    let direct := i0.orderedSameAs o0
    if boxesMatch bin bout then
      if direct then .ok none
      else
        match bin[me]?, bout[me]? with
        | some i, some o => .ok ((overlapMapTranspose 0 o [i]).head?.map fun e => .transpose e.plan)
        | _, _ => .error .ub
    else
      match alg with
      | .alltoallv => do
        let o ← makeAllToAllv direct bin bout me
        .ok (o.map (.alltoallv direct))
      | .alltoall => do
        let o ← makeAllToAll direct bin bout me
        .ok (o.map (.alltoall direct))
      | .p2p | .p2pPlined => do
        let o ← makePointToPoint direct bin bout me
        .ok (some (.p2p direct o))
  | _, _ => .error .ub

/-- `size_workspace` of a reshape (reshape3d.h:80, 163). The size of a transpose is computed from its plan
(reshape3d.h:449). -/
def Shaper.sizeWorkspace : Shaper → Int
  | .alltoall _ o => o.sizeWorkspace
  | .alltoallv _ o => o.inSize + o.outSize
  | .p2p _ o => o.inSize + o.outSize
  | .transpose p => p.size 0 * p.size 1 * p.size 2 + p.size 0 * p.size 1 * p.size 2

/-- What a communicating reshape does on one rank. -/
def Shaper.job (stride nb : Nat) (done : List Nat) : Option Shaper → Job
  | some (.alltoall direct o) => o.job direct stride nb
  | some (.alltoallv direct o) => o.job direct stride nb
  | some (.p2p direct o) => o.job direct stride nb done
  | _ => Job.idle

/-- `reshape3d_transpose::transpose` (reshape3d.h:471-485). -/
def transposeLocal (stride nb : Nat) (plan : PackPlan) (inplace : Bool) (m : Arrays α) : Res (List α) := do
  let n := plan.size 0 * plan.size 1 * plan.size 2
  let moves := (List.range nb).flatMap fun (j : Nat) => unpackTranspose stride plan (j * n) (j * n)
  if inplace then
    let ws ← copyMoves ((loop (nb * n)).map fun i => (i, i)) m.src m.ws
    copyMoves moves ws m.dst
  else copyMoves moves m.src m.dst

/-- The reshape objects of all ranks. -/
def shapersOf (alg : Alg) (bin bout : List Box) : Res (List (Option Shaper)) :=
  mapRes (fun r _ => makeReshape alg bin bout r) 0 bin

/-- Apply a reshape on all ranks and return the destinations.  A rank without a reshape object does nothing.  `done r` is
the order in which the messages of rank `r` complete (point-to-point only), `inplace r` tells if source and destination of
rank `r` are the same array. -/
def reshapeAll (stride nb : Nat) (done : Nat → List Nat) (inplace : Nat → Bool) (shs : List (Option Shaper))
    (mems : List (Arrays α)) : Res (List (List α)) := do
  let moved ← runJobs (shs.zipIdx.map fun x => Shaper.job stride nb (done x.2) x.1) mems
  mapRes (fun r (x : (Option Shaper × Arrays α) × List α) =>
    match x.1.1 with
    | some (.transpose plan) => transposeLocal stride nb plan (inplace r) x.1.2
    | _ => .ok x.2) 0 ((shs.zip mems).zip moved)

end Verif
