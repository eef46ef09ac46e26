import Verif.Reshape

/-!
# Reshape operations in machine integers

`Reshape.lean` models the reshape operations with unbounded integers.  The code is a template over the type `index` of
the coordinates (`int` or `long long`, reshape3d.cpp:811-812), but for both of them it keeps the sizes and offsets of the
messages in variables of type `int`.  This file repeats the operations of the factories and of `apply_base` with the
types of the code:
* the result of an operation of type `int` or `index` that does not fit is signed overflow, the outcome `ub`;
* a conversion of `index` or `long long` to `int` keeps the low 32 bits (`toInt32`);
* a conversion to `size_t` and the operations of type `size_t` are modulo `2 ^ 64` (`toSize`);
* `box3d::count` is of type `long long` (geometry.h:76) and is not checked here; addresses are 64-bit pointers and are not
  checked either, an access out of bounds is detected by the memory model;
* a negative number of entries passed to MPI is an error of the program, the outcome `ub`.
`/repo/src/heffte_reshape3d.cpp` is cited as `reshape3d.cpp`, `/repo/include/heffte_reshape3d.h` as `reshape3d.h` and
`/repo/include/heffte_pack3d.h` as `pack3d.h`.
-/

namespace Verif

/-- The type of the coordinates of a box (reshape3d.cpp:811-812). -/
inductive IndexType where
  | int
  | longLong
deriving DecidableEq, Repr

/-- One more than the largest value. -/
def IndexType.bound : IndexType → Int
  | .int => 2 ^ 31
  | .longLong => 2 ^ 63

/-- The number can be stored. -/
def IndexType.fits (t : IndexType) (x : Int) : Bool := decide (-t.bound ≤ x) && decide (x < t.bound)

/-- The result of an operation of the type. -/
def IndexType.arith (t : IndexType) (x : Int) : Res Int := if t.fits x then .ok x else .error .ub

/-- The result of an operation of type `int`. -/
def intArith (x : Int) : Res Int := IndexType.int.arith x

/-- Conversion to `size_t`. -/
def toSize (x : Int) : Int := x % 2 ^ 64

/-- A number of entries passed to MPI. -/
def mpiCount (x : Int) : Res Int := if 0 ≤ x then .ok x else .error .ub

/-! ## The factories -/

/-- The offset of the overlap, computed in the type `index` and stored as `int` (reshape3d.cpp:134-136, 170-172,
188-190). -/
def overlapOffsetM (t : IndexType) (source overlap : Box) : Res Int := do
  let d2 ← t.arith (overlap.low (source.order 2) - source.low (source.order 2))
  let a ← t.arith (d2 * source.osize 0)
  let b ← t.arith (a * source.osize 1)
  let d1 ← t.arith (overlap.low (source.order 1) - source.low (source.order 1))
  let c ← t.arith (d1 * source.osize 0)
  let s ← t.arith (b + c)
  let d0 ← t.arith (overlap.low (source.order 0) - source.low (source.order 0))
  let r ← t.arith (s + d0)
  .ok (toInt32 r)

/-- The plan without a transpose (reshape3d.cpp:138-140, 166-168); the members are of type `index`. -/
def directPlanM (t : IndexType) (source overlap : Box) : Res PackPlan := do
  let plane ← t.arith (source.osize 1 * source.osize 0)
  .ok ⟨⟨overlap.osize 0, overlap.osize 1, overlap.osize 2⟩, source.osize 0, plane, 0, 0, ⟨0, 0, 0⟩⟩

/-- The plan with a transpose (reshape3d.cpp:160-164, 199-203). -/
def transposePlanM (t : IndexType) (dest overlap : Box) (src : A3 (Fin 3)) : Res PackPlan := do
  let plane ← t.arith (dest.osize 1 * dest.osize 0)
  let buff ← t.arith (overlap.size (src 0) * overlap.size (src 1))
  .ok ⟨⟨overlap.osize 0, overlap.osize 1, overlap.osize 2⟩, dest.osize 0, plane,
    overlap.size (src 0), buff, orderMap dest.order src⟩

/-- The plan of one message. -/
def planM (t : IndexType) (transpose : Bool) (target overlap : Box) (src : A3 (Fin 3)) : Res PackPlan :=
  if transpose then transposePlanM t target overlap src else directPlanM t target overlap

/-- One pass of the loops of `compute_overlap_map_direct_pack` and `compute_overlap_map_transpose_pack`
(reshape3d.cpp:129-143, 182-205); the size of the message is stored as `int`. -/
def entryM (t : IndexType) (transpose : Bool) (target : Box) (boxes : List Box) (iproc : Nat) : Res (Option Entry) :=
  match boxes[iproc]? with
  | none => .ok none
  | some b =>
    let overlap := target.collide b
    if overlap.empty then .ok none
    else do
      let offset ← overlapOffsetM t target overlap
      let plan ← planM t transpose target overlap b.order
      .ok (some ⟨iproc, offset, toInt32 overlap.count, plan⟩)

/-- `compute_overlap_map_direct_pack` and `compute_overlap_map_transpose_pack` (reshape3d.cpp:125-144, 179-206). -/
def overlapMapM (t : IndexType) (transpose : Bool) (me : Nat) (target : Box) (boxes : List Box) : Res (List Entry) := do
  let l ← mapRes (fun _ i => entryM t transpose target boxes ((i + me + 1) % boxes.length)) 0 (List.range boxes.length)
  .ok (l.filterMap id)

/-- One pass of the loop of `compute_overlap_map_all2all_pack` (reshape3d.cpp:148-176). -/
def entryA2aM (t : IndexType) (transpose : Bool) (target : Box) (boxes : List Box) (iproc : Nat) :
    Res (Option (Int × PackPlan)) :=
  match boxes[iproc]? with
  | none => .ok none
  | some b =>
    let overlap := target.collide b
    if overlap.empty then .ok (some (0, ⟨⟨0, 0, 0⟩, 0, 0, 0, 0, ⟨0, 0, 0⟩⟩))
    else do
      let plan ← planM t transpose target overlap b.order
      let offset ← overlapOffsetM t target overlap
      .ok (some (offset, plan))

/-- `compute_overlap_map_all2all_pack` (reshape3d.cpp:145-177). -/
def overlapMapA2aM (t : IndexType) (transpose : Bool) (group : List Nat) (target : Box) (boxes : List Box) :
    Res (List (Int × PackPlan)) := do
  let l ← mapRes (fun _ i => entryA2aM t transpose target boxes i) 0 group
  .ok (l.filterMap id)

/-- `make_reshape3d_alltoall` (reshape3d.cpp:302-341): the sizes of the boxes and the result of `get_max_size`
(reshape3d.cpp:112-119) are converted to `int`. -/
def makeAllToAllM (t : IndexType) (direct : Bool) (bin bout : List Box) (me : Nat) : Res (Option AllToAll) :=
  match bin[me]?, bout[me]? with
  | some inbox, some outbox => do
    let group ← a2aGroup (if inbox.empty then [] else [me]) (if outbox.empty then [] else [me]) bin bout
    if group = [] then .ok none
    else do
      let packs ← overlapMapA2aM t false group inbox bout
      let unpacks ← overlapMapA2aM t (!direct) group outbox bin
      .ok (some ⟨toInt32 inbox.count, toInt32 outbox.count, group, packs, unpacks, toInt32 (getMaxSize group bin bout)⟩)
  | _, _ => .error .ub

/-- The sum of the sizes of the messages in a variable of type `int` (`std::accumulate`, reshape3d.cpp:355-356,
519-520). -/
def totalM : List Entry → Int → Res Int
  | [], s => .ok s
  | e :: t, s => do
    let s' ← intArith (s + e.size)
    totalM t s'

/-- The inner loop of the constructor of `iotripple` (reshape3d.h:285-292). -/
def ioInnerM (rank : Nat) : List (Entry × Nat) → IoRow × Int → Res (IoRow × Int)
  | [], st => .ok st
  | e :: t, st =>
    if e.1.proc ≠ rank then ioInnerM rank t st
    else do
      let next ← intArith (st.2 + e.1.size)
      ioInnerM rank t (⟨e.1.size, st.2, some e.2⟩, next)

/-- The constructor of `iotripple` (reshape3d.h:280-294). -/
def ioRowsM (entries : List Entry) : List Nat → Int → Res (List IoRow)
  | [], _ => .ok []
  | rank :: t, offset => do
    let s ← ioInnerM rank entries.zipIdx (⟨0, 0, none⟩, offset)
    let rows ← ioRowsM entries t s.2
    .ok (s.1 :: rows)

/-- The plans of `make_reshape3d_alltoallv` and `make_reshape3d_pointtopoint` (reshape3d.cpp:464-483, 736-755). -/
def sendEntriesM (t : IndexType) (bout : List Box) (me : Nat) (inbox : Box) : Res (List Entry) :=
  if countCollisions bout inbox > 0 then overlapMapM t false me inbox bout else .ok []

/-- See `sendEntriesM`. -/
def recvEntriesM (t : IndexType) (direct : Bool) (bin : List Box) (me : Nat) (outbox : Box) : Res (List Entry) :=
  if countCollisions bin outbox > 0 then overlapMapM t (!direct) me outbox bin else .ok []

/-- `make_reshape3d_alltoallv` with the constructor (reshape3d.cpp:445-499, 342-363). -/
def makeAllToAllvM (t : IndexType) (direct : Bool) (bin bout : List Box) (me : Nat) : Res (Option AllToAllv) :=
  match bin[me]?, bout[me]? with
  | some inbox, some outbox => do
    let packs ← sendEntriesM t bout me inbox
    let unpacks ← recvEntriesM t direct bin me outbox
    let group ← a2aGroup (packs.map Entry.proc) (unpacks.map Entry.proc) bin bout
    if group = [] then .ok none
    else do
      let _ ← totalM packs 0
      let _ ← totalM unpacks 0
      let send ← ioRowsM packs group 0
      let recv ← ioRowsM unpacks group 0
      .ok (some ⟨toInt32 inbox.count, toInt32 outbox.count, group, packs, unpacks, send, recv⟩)
  | _, _ => .error .ub

/-- The vector `recv_loc` (reshape3d.cpp:757-760). -/
def recvLocsM : List Int → Int → Res (List Int)
  | [], loc => .ok [loc]
  | [_], loc => .ok [loc]
  | s :: t, loc => do
    let next ← intArith (loc + s)
    let l ← recvLocsM t next
    .ok (loc :: l)

/-- `make_reshape3d_pointtopoint` with the constructor (reshape3d.cpp:716-769, 501-531). -/
def makePointToPointM (t : IndexType) (direct : Bool) (bin bout : List Box) (me : Nat) : Res PointToPoint :=
  match bin[me]?, bout[me]? with
  | some inbox, some outbox => do
    let packs ← sendEntriesM t bout me inbox
    let unpacks ← recvEntriesM t direct bin me outbox
    let locs ← recvLocsM (unpacks.map Entry.size) 0
    let _ ← totalM packs 0
    let _ ← totalM unpacks 0
    .ok ⟨toInt32 inbox.count, toInt32 outbox.count, decide ((unpacks.getLast?.map Entry.proc) = some me), packs, unpacks,
      locs⟩
  | _, _ => .error .ub

/-- The size computed by the constructor of `reshape3d_transpose` (reshape3d.h:449). -/
def planSizeM (t : IndexType) (p : PackPlan) : Res Int := do
  let a ← t.arith (p.size 0 * p.size 1)
  t.arith (a * p.size 2)

/-- `make_reshape3d` (reshape3d.h:503-560). -/
def makeReshapeM (t : IndexType) (alg : Alg) (bin bout : List Box) (me : Nat) : Res (Option Shaper) :=
  match bin.head?, bout.head? with
  | some i0, some o0 =>
    let direct := i0.orderedSameAs o0
    if boxesMatch bin bout then
      if direct then .ok none
      else
        match bin[me]?, bout[me]? with
        | some i, some o => do
          let l ← overlapMapM t true 0 o [i]
          match l.head? with
          | none => .ok none
          | some e => do
            let _ ← planSizeM t e.plan
            .ok (some (.transpose e.plan))
        | _, _ => .error .ub
    else
      match alg with
      | .alltoallv => do
        let o ← makeAllToAllvM t direct bin bout me
        .ok (o.map (.alltoallv direct))
      | .alltoall => do
        let o ← makeAllToAllM t direct bin bout me
        .ok (o.map (.alltoall direct))
      | .p2p | .p2pPlined => do
        let o ← makePointToPointM t direct bin bout me
        .ok (some (.p2p direct o))
  | _, _ => .error .ub

/-- The reshape objects of all ranks. -/
def shapersOfM (t : IndexType) (alg : Alg) (bin bout : List Box) : Res (List (Option Shaper)) :=
  mapRes (fun r _ => makeReshapeM t alg bin bout r) 0 bin

/-- `size_workspace` of a reshape (reshape3d.h:80, 163): the sum of two members of type `index`, and the product of two
`int` with a `size_t`. -/
def Shaper.sizeWorkspaceM (t : IndexType) : Shaper → Res Int
  | .alltoall _ o => do
    let a ← intArith (2 * o.numEntries)
    .ok (toSize (toSize a * o.packplan.length))
  | .alltoallv _ o => do
    let s ← t.arith (o.inSize + o.outSize)
    .ok (toSize s)
  | .p2p _ o => do
    let s ← t.arith (o.inSize + o.outSize)
    .ok (toSize s)
  | .transpose p => do
    let n ← planSizeM t p
    let s ← t.arith (n + n)
    .ok (toSize s)

/-! ## The loops of the packers -/

/-- `slow * plan.plane_stride + mid * plan.line_stride` (pack3d.h:96, 106). -/
def placeFits (t : IndexType) (p : PackPlan) (i j : Int) : Bool :=
  t.fits (i * p.planeStride) && t.fits (j * p.lineStride) && t.fits (i * p.planeStride + j * p.lineStride)

/-- The computations of the loops of `direct_packer::pack` (pack3d.h:94-98). -/
def packFits (t : IndexType) (p : PackPlan) : Bool :=
  (loop (p.size 2)).all fun slow => (loop (p.size 1)).all fun mid => placeFits t p slow mid

/-- The computations of the loops of `direct_packer::unpack` (pack3d.h:103-108). -/
def unpackDirectFits (t : IndexType) (p : PackPlan) : Bool :=
  (loop (p.size 2)).all fun slow => (loop (p.size 1)).all fun mid => placeFits t p slow mid &&
    t.fits (slow * p.size 1) && t.fits (slow * p.size 1 + mid) && t.fits ((slow * p.size 1 + mid) * p.size 0)

/-- The three counters in the order in which the index of `buffer` uses them: with `buff_plane_stride`, with
`buff_line_stride`, alone (pack3d.h:135-192). -/
def bufCounters (p : PackPlan) (i j k : Int) : A3 Int :=
  if p.map 0 = 0 ∧ p.map 1 = 1 then ⟨i, j, k⟩
  else if p.map 0 = 0 ∧ p.map 1 = 2 then ⟨j, i, k⟩
  else if p.map 0 = 1 ∧ p.map 1 = 0 then ⟨i, k, j⟩
  else if p.map 0 = 1 ∧ p.map 1 = 2 then ⟨k, i, j⟩
  else if p.map 0 = 2 ∧ p.map 1 = 0 then ⟨j, k, i⟩
  else ⟨k, j, i⟩

/-- The index of `buffer` in `transpose_packer::unpack`. -/
def bufFits (t : IndexType) (p : PackPlan) (i j k : Int) : Bool :=
  let c := bufCounters p i j k
  t.fits (c 0 * p.buffPlane) && t.fits (c 1 * p.buffLine) && t.fits (c 0 * p.buffPlane + c 1 * p.buffLine) &&
    t.fits (c 0 * p.buffPlane + c 1 * p.buffLine + c 2)

/-- The ends of the blocks `bi + stride` (pack3d.h:145-150). -/
def blocksFit (t : IndexType) (stride : Nat) (n : Int) : Bool := (loopBy stride n 0).all fun b => t.fits (b + stride)

/-- The computations of the loops of `transpose_packer::unpack` (pack3d.h:132-194). -/
def unpackTransposeFits (t : IndexType) (stride : Nat) (p : PackPlan) : Bool :=
  (decide (p.map 0 = 0 ∧ p.map 1 = 1) ||
    (blocksFit t stride (p.size 2) && blocksFit t stride (p.size 1) && blocksFit t stride (p.size 0))) &&
  (loop (p.size 2)).all fun i => (loop (p.size 1)).all fun j => (loop (p.size 0)).all fun k =>
    placeFits t p i j && t.fits (i * p.planeStride + j * p.lineStride + k) && bufFits t p i j k

/-- `packer::pack`. -/
def packM (t : IndexType) (p : PackPlan) (data buf : Int) : Res (List (Int × Int)) :=
  if packFits t p then .ok (packMoves p data buf) else .error .ub

/-- `packer::unpack`. -/
def unpackM (t : IndexType) (direct : Bool) (stride : Nat) (p : PackPlan) (buf data : Int) : Res (List (Int × Int)) :=
  if direct then if unpackDirectFits t p then .ok (unpackDirect p buf data) else .error .ub
  else if unpackTransposeFits t stride p then .ok (unpackTranspose stride p buf data) else .error .ub

/-! ## apply_base -/

/-- The loop over the batches when packing one message (reshape3d.cpp:252-255, 379-384): `offset` is an `int` that grows
by the size of the message. -/
def packBatches (t : IndexType) (p : PackPlan) (src inSize step : Int) : List Nat → Int → Res (List (Int × Int) × Int)
  | [], offset => .ok ([], offset)
  | j :: js, offset => do
    let d ← t.arith (j * inSize)
    let m ← packM t p (src + d) offset
    let next ← intArith (offset + step)
    let r ← packBatches t p src inSize step js next
    .ok (m ++ r.1, r.2)

/-- The loop over the batches when unpacking one message (reshape3d.cpp:288-293, 433-438). -/
def unpackBatches (t : IndexType) (direct : Bool) (stride : Nat) (p : PackPlan) (base dst outSize step : Int) :
    List Nat → Int → Res (List (Int × Int) × Int)
  | [], offset => .ok ([], offset)
  | j :: js, offset => do
    let d ← t.arith (j * outSize)
    let m ← unpackM t direct stride p (base + offset) (dst + d)
    let next ← intArith (offset + step)
    let r ← unpackBatches t direct stride p base dst outSize step js next
    .ok (m ++ r.1, r.2)

/-- The packing loop of `reshape3d_alltoall::apply_base` (reshape3d.cpp:249-259). -/
def allToAllPackM (t : IndexType) (nb : Nat) (inSize numEntries : Int) : List (Int × PackPlan) → Int → Res (List (Int × Int))
  | [], _ => .ok []
  | e :: l, offset =>
    if e.2.size 0 > 0 then do
      let r ← packBatches t e.2 e.1 inSize numEntries (List.range nb) offset
      let m ← allToAllPackM t nb inSize numEntries l r.2
      .ok (r.1 ++ m)
    else do
      let c ← intArith (nb * numEntries)
      let next ← intArith (offset + c)
      allToAllPackM t nb inSize numEntries l next

/-- The unpacking loop of `reshape3d_alltoall::apply_base` (reshape3d.cpp:285-298). -/
def allToAllUnpackM (t : IndexType) (direct : Bool) (stride nb : Nat) (outSize numEntries base : Int) :
    List (Int × PackPlan) → Int → Res (List (Int × Int))
  | [], _ => .ok []
  | e :: l, offset =>
    if e.2.size 0 > 0 then do
      let r ← unpackBatches t direct stride e.2 base e.1 outSize numEntries (List.range nb) offset
      let m ← allToAllUnpackM t direct stride nb outSize numEntries base l r.2
      .ok (r.1 ++ m)
    else do
      let c ← intArith (nb * numEntries)
      let next ← intArith (offset + c)
      allToAllUnpackM t direct stride nb outSize numEntries base l next

/-- `reshape3d_alltoall::apply_base` (reshape3d.cpp:237-300); the position of `recv_buffer` is
`batch_size * num_entries` converted to `size_t` and multiplied by `packplan.size()`. -/
def AllToAll.jobM (t : IndexType) (o : AllToAll) (direct : Bool) (stride nb : Nat) : Res Job := do
  let c ← intArith (nb * o.numEntries)
  let base := toSize (toSize c * o.packplan.length)
  let packs ← allToAllPackM t nb o.inSize o.numEntries o.packplan 0
  let c ← mpiCount c
  let unpacks ← allToAllUnpackM t direct stride nb o.outSize o.numEntries base o.unpackplan 0
  .ok { group := o.group
        packs := packs
        sends := o.group.zipIdx.map fun m => ⟨m.1, m.2 * c, c⟩
        recvs := o.group.zipIdx.map fun m => ⟨m.1, base + m.2 * c, c⟩
        selfPacks := []
        unpacks := unpacks }

/-- The packing loop of `reshape3d_alltoallv::apply_base` (reshape3d.cpp:376-389). -/
def allToAllvPackM (t : IndexType) (nb : Nat) (inSize : Int) (entries : List Entry) :
    List IoRow → Int → Res (List (Int × Int))
  | [], _ => .ok []
  | row :: l, offset =>
    match row.map.bind (entries[·]?) with
    | none => allToAllvPackM t nb inSize entries l offset
    | some e => do
      let r ← packBatches t e.plan e.offset inSize e.size (List.range nb) offset
      let m ← allToAllvPackM t nb inSize entries l r.2
      .ok (r.1 ++ m)

/-- The unpacking loop of `reshape3d_alltoallv::apply_base` (reshape3d.cpp:429-442). -/
def allToAllvUnpackM (t : IndexType) (direct : Bool) (stride nb : Nat) (outSize base : Int) (entries : List Entry) :
    List IoRow → Int → Res (List (Int × Int))
  | [], _ => .ok []
  | row :: l, offset =>
    match row.map.bind (entries[·]?) with
    | none => allToAllvUnpackM t direct stride nb outSize base entries l offset
    | some e => do
      let r ← unpackBatches t direct stride e.plan base e.offset outSize e.size (List.range nb) offset
      let m ← allToAllvUnpackM t direct stride nb outSize base entries l r.2
      .ok (r.1 ++ m)

/-- One member of the group in the call of `MPI_Alltoallv` (reshape3d.cpp:404-423). -/
def ioMsgM (nb : Nat) (base : Int) (m : Nat × IoRow) : Res Msg := do
  let displ ← intArith (m.2.displ * nb)
  let count ← intArith (m.2.count * nb)
  let count ← mpiCount count
  .ok ⟨m.1, base + displ, count⟩

/-- `reshape3d_alltoallv::apply_base` (reshape3d.cpp:365-443). -/
def AllToAllv.jobM (t : IndexType) (o : AllToAllv) (direct : Bool) (stride nb : Nat) : Res Job := do
  let base ← t.arith (nb * o.inSize)
  let packs ← allToAllvPackM t nb o.inSize o.packs o.send 0
  let sends ← mapRes (fun _ m => ioMsgM nb 0 m) 0 (o.group.zip o.send)
  let recvs ← mapRes (fun _ m => ioMsgM nb base m) 0 (o.group.zip o.recv)
  let unpacks ← allToAllvUnpackM t direct stride nb o.outSize base o.unpacks o.recv 0
  .ok { group := o.group, packs := packs, sends := sends, recvs := recvs, selfPacks := [], unpacks := unpacks }

/-- One batch when packing a message of the point-to-point algorithms (reshape3d.cpp:654-657, 679-682): the positions
`j * input_size` of type `index` and `j * send_size` of type `int`. -/
def p2pBatchM (t : IndexType) (inSize : Int) (e : Entry) (buf : Int) (j : Nat) : Res (List (Int × Int)) := do
  let d ← t.arith (j * inSize)
  let s ← intArith (j * e.size)
  packM t e.plan (d + e.offset) (buf + s)

/-- One batch when unpacking a message (reshape3d.cpp:686-689, 705-708). -/
def p2pUnbatchM (t : IndexType) (direct : Bool) (stride : Nat) (outSize size : Int) (plan : PackPlan) (offset buf : Int)
    (j : Nat) : Res (List (Int × Int)) := do
  let s ← intArith (j * size)
  let d ← t.arith (j * outSize)
  unpackM t direct stride plan (buf + s) (d + offset)

/-- The sending loop of `reshape3d_pointtopoint::apply_base` (reshape3d.cpp:651-674), moves and messages; `offset` is a
`size_t`. -/
def p2pSendM (t : IndexType) (nb : Nat) (inSize : Int) : List Entry → Int → Res (List (Int × Int) × List Msg)
  | [], _ => .ok ([], [])
  | e :: l, offset => do
    let m ← mapRes (fun _ j => p2pBatchM t inSize e offset j) 0 (List.range nb)
    let c ← intArith (nb * e.size)
    let c ← mpiCount c
    let r ← p2pSendM t nb inSize l (toSize (offset + c))
    .ok (m.flatten ++ r.1, ⟨e.proc, offset, c⟩ :: r.2)

/-- One `MPI_Irecv` (reshape3d.cpp:644-648). -/
def p2pRecvM (nb : Nat) (base : Int) (m : Entry × Int) : Res Msg := do
  let d ← intArith (nb * m.2)
  let c ← intArith (nb * m.1.size)
  let c ← mpiCount c
  .ok ⟨m.1.proc, base + d, c⟩

/-- Unpacking of the message number `i` (reshape3d.cpp:704-709). -/
def p2pUnpackOneM (t : IndexType) (direct : Bool) (stride nb : Nat) (o : PointToPoint) (base : Int) (i : Nat) :
    Res (List (Int × Int)) :=
  match o.unpacks[i]?, o.recvLoc[i]? with
  | some e, some loc => do
    let d ← intArith (nb * loc)
    let m ← mapRes (fun _ j => p2pUnbatchM t direct stride o.outSize e.size e.plan e.offset (base + d) j) 0 (List.range nb)
    .ok m.flatten
  | _, _ => .ok []

/-- The packing of the message to itself (reshape3d.cpp:678-683). -/
def p2pSelfPackM (t : IndexType) (nb : Nat) (o : PointToPoint) (base : Int) : Res (List (Int × Int)) :=
  match o.packs.getLast?, o.recvLoc.getLast? with
  | some e, some loc => do
    let d ← intArith (nb * loc)
    let m ← mapRes (fun _ j => p2pBatchM t o.inSize e (base + d) j) 0 (List.range nb)
    .ok m.flatten
  | _, _ => .ok []

/-- The unpacking of the message to itself (reshape3d.cpp:685-690). -/
def p2pSelfUnpackM (t : IndexType) (direct : Bool) (stride nb : Nat) (o : PointToPoint) (base : Int) :
    Res (List (Int × Int)) :=
  match o.packs.getLast?, o.unpacks.getLast?, o.recvLoc.getLast? with
  | some e, some u, some loc => do
    let d ← intArith (nb * loc)
    let m ← mapRes (fun _ j => p2pUnbatchM t direct stride o.outSize e.size u.plan u.offset (base + d) j) 0
      (List.range nb)
    .ok m.flatten
  | _, _, _ => .ok []

/-- `reshape3d_pointtopoint::apply_base` (reshape3d.cpp:627-714). -/
def PointToPoint.jobM (t : IndexType) (o : PointToPoint) (direct : Bool) (stride nb : Nat) (done : List Nat) : Res Job := do
  let base ← t.arith (nb * o.inSize)
  let recvs ← mapRes (fun _ m => p2pRecvM nb base m) 0 ((dropSelf o.selfToSelf o.unpacks).zip o.recvLoc)
  let s ← p2pSendM t nb o.inSize (dropSelf o.selfToSelf o.packs) 0
  let selfPacks ← if o.selfToSelf then p2pSelfPackM t nb o base else .ok []
  let selfUnpacks ← if o.selfToSelf then p2pSelfUnpackM t direct stride nb o base else .ok []
  let unpacks ← mapRes (fun _ i => p2pUnpackOneM t direct stride nb o base i) 0 done
  .ok { group := [], packs := s.1, sends := s.2, recvs := recvs, selfPacks := selfPacks,
        unpacks := selfUnpacks ++ unpacks.flatten }

/-- What a communicating reshape does on one rank. -/
def Shaper.jobM (t : IndexType) (stride nb : Nat) (done : List Nat) : Option Shaper → Res Job
  | some (.alltoall direct o) => o.jobM t direct stride nb
  | some (.alltoallv direct o) => o.jobM t direct stride nb
  | some (.p2p direct o) => o.jobM t direct stride nb done
  | _ => .ok Job.idle

variable {α : Type}

/-- One batch of `reshape3d_transpose::transpose` (reshape3d.h:475-483). -/
def transposeBatchM (t : IndexType) (stride : Nat) (plan : PackPlan) (n : Int) (j : Nat) : Res (List (Int × Int)) := do
  let d ← t.arith (j * n)
  unpackM t false stride plan d d

/-- `reshape3d_transpose::transpose` (reshape3d.h:471-485). -/
def transposeLocalM (t : IndexType) (stride nb : Nat) (plan : PackPlan) (inplace : Bool) (m : Arrays α) : Res (List α) := do
  let n ← planSizeM t plan
  let moves ← mapRes (fun _ j => transposeBatchM t stride plan n j) 0 (List.range nb)
  if inplace then
    let c ← t.arith (nb * n)
    let ws ← copyMoves ((loop c).map fun i => (i, i)) m.src m.ws
    copyMoves moves.flatten ws m.dst
  else copyMoves moves.flatten m.src m.dst

/-- Apply a reshape on all ranks and return the destinations, see `reshapeAll`. -/
def reshapeAllM (t : IndexType) (stride nb : Nat) (done : Nat → List Nat) (inplace : Nat → Bool)
    (shs : List (Option Shaper)) (mems : List (Arrays α)) : Res (List (List α)) := do
  let jobs ← mapRes (fun r sh => Shaper.jobM t stride nb (done r) sh) 0 shs
  let moved ← runJobs jobs mems
  mapRes (fun r (x : (Option Shaper × Arrays α) × List α) =>
    match x.1.1 with
    | some (.transpose plan) => transposeLocalM t stride nb plan (inplace r) x.1.2
    | _ => .ok x.2) 0 ((shs.zip mems).zip moved)

end Verif
