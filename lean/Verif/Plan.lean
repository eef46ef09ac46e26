import Verif.Geometry

/-!
# Model of `/repo/src/heffte_plan_logic.cpp`

The planner (cited as `plan_logic.cpp`, the options as `plan_logic.h`).  A direction `-1` is `none`; a direction that
is still `-1` where the code indexes an array with it is undefined behaviour (`req`).
Simplification: `use_gpu_aware`, the rank number carried by `rank_remap` and the tracing are dropped.
-/

namespace Verif

/-- `reshape_algorithm` (plan_logic.h:48-57). -/
inductive Alg where
  | alltoallv
  | alltoall
  | p2pPlined
  | p2p
deriving DecidableEq, Repr

/-- `plan_options` (plan_logic.h:131-176). The member `subcomm` is written by `use_subcomm` and never read. -/
structure Opts where
  useReorder : Bool
  algorithm : Alg
  usePencils : Bool
  numSub : Int
  subcomm : Option (List Nat)
deriving DecidableEq, Repr

/-- The default options (plan_logic.h:133-140); `use_reorder` depends on the backend. -/
def Opts.default (reorder : Bool) : Opts := ⟨reorder, .alltoallv, true, -1, none⟩

/-- `use_num_subranks` (plan_logic.h:154). -/
def Opts.useNumSubranks (o : Opts) (n : Int) : Opts := { o with numSub := n }

/-- `use_subcomm` (plan_logic.h:167-170); a communicator is the list of its ranks in the larger communicator. -/
def Opts.useSubcomm (o : Opts) (comm : List Nat) : Opts := { o with numSub := 1, subcomm := some comm }

/-- The array `fft_direction` while it is being filled. -/
abbrev Dirs := A3 (Option (Fin 3))

/-- `get_any_valid` (plan_logic.cpp:15-23). -/
def getAnyValid (c : Dirs) : Option (Fin 3) :=
  dims.find? fun i => dims.all fun j => decide (c j ≠ some i)

/-- A direction used as an array index. -/
def req (d : Option (Fin 3)) : Res (Fin 3) :=
  match d with
  | some x => .ok x
  | none => .error .ub

/-- `is_pencils` for several directions (plan_logic.cpp:30-33). -/
def isPencilsAll (world : Box) (shape : List Box) (dirs : List (Fin 3)) : Bool :=
  dirs.all fun d => isPencils world shape d

/-- `apply_r2c` (plan_logic.cpp:40-45). -/
def applyR2c (shape : List Box) (r2c : Option (Fin 3)) : List Box :=
  match r2c with
  | none => shape
  | some d => shape.map fun s => s.r2c d

/-- `order_is_identical` (plan_logic.cpp:52-59). -/
def orderIsIdentical (shape : List Box) : Bool :=
  match shape with
  | [] => true
  | b :: _ => shape.all fun s => dims.all fun i => s.order i == b.order i

/-- `new_order` (plan_logic.cpp:65-75). -/
def newOrder (o : A3 (Fin 3)) (dim : Fin 3) : A3 (Fin 3) :=
  if o 0 ≠ dim then
    if o 1 = dim then ⟨o.y, o.x, o.z⟩
    else if o 2 = dim then ⟨o.z, o.y, o.x⟩
    else o
  else o

/-- `next_pencils_shape` (plan_logic.cpp:94-120); `boxes_out[0]` and `front()` of an empty vector are undefined. -/
def nextPencilsShape (world : Box) (grid : Nat × Nat) (dim : Fin 3) (source : List Box) (useReorder : Bool)
    (worldOut : Box) (test : List (Fin 3)) (boxesOut : List Box) (remap : Remap) : Res (List Box) :=
  if useReorder then
    if isPencilsAll worldOut boxesOut test then
      match boxesOut.head? with
      | none => .error .ub
      | some b =>
        if b.order 0 = dim then .ok boxesOut
        else .ok (reorder boxesOut (newOrder b.order dim))
    else
      match source.head? with
      | none => .error .ub
      | some s => makePencils world grid dim source (newOrder s.order dim) remap
  else
    if isPencilsAll worldOut boxesOut test then .ok boxesOut
    else makePencils world grid dim source world.order remap

/-- The output boxes extended to the real world in the r2c direction (plan_logic.cpp:139-149). -/
def nonR2cBox (world : Box) (d : Fin 3) (b : Box) : Box :=
  ⟨b.low.set d (world.low d), b.high.set d (world.high d), b.order⟩

/-- `next_pencils_shape0` (plan_logic.cpp:127-154). -/
def nextPencilsShape0 (world : Box) (grid : Nat × Nat) (dim : Fin 3) (r2c : Option (Fin 3)) (source : List Box)
    (useReorder : Bool) (worldOut : Box) (test : List (Fin 3)) (boxesOut : List Box) (remap : Remap) :
    Res (List Box) :=
  match r2c with
  | some d =>
    if isPencilsAll worldOut boxesOut test then
      nextPencilsShape world grid dim source useReorder world test (boxesOut.map (nonR2cBox world d)) remap
    else nextPencilsShape world grid dim source useReorder worldOut test boxesOut remap
  | none => nextPencilsShape world grid dim source useReorder worldOut test boxesOut remap

/-- `logic_plan3d` (plan_logic.h:276-291): `in_shape[0..3]`, `out_shape[0..3]`, `fft_sizes`, `fft_direction`,
`index_count`. -/
structure Plan where
  in0 : List Box
  in1 : List Box
  in2 : List Box
  in3 : List Box
  out0 : List Box
  out1 : List Box
  out2 : List Box
  out3 : List Box
  fftSizes : A3 Int
  dirs : A3 (Fin 3)
  indexCount : Int
deriving DecidableEq, Repr

/-- The loop of step 5 (plan_logic.cpp:224-233) over the remaining directions, with the current `fft_direction[1]`. -/
def step5 (f0 f2 : Option (Fin 3)) (pen : Fin 3 → Bool) : List (Fin 3) → Option (Fin 3) → Option (Fin 3)
  | [], f1 => f1
  | i :: is, f1 =>
    if decide (some i ≠ f0) && decide (some i ≠ f2) && pen i then some i
    else step5 f0 f2 pen is (if f1 = none then getAnyValid ⟨f0, f1, f2⟩ else f1)

/-- Number of ranks that take part (plan_logic.cpp:168-170, 286). -/
def workRanks (boxesIn : List Box) (remap : Remap) : Nat :=
  if remap.isAll then boxesIn.length else remap.sub

/-- Step 1 (plan_logic.cpp:176-185). -/
def pencilDir0 (worldIn : Box) (boxesIn : List Box) (r2c : Option (Fin 3)) : Option (Fin 3) :=
  match r2c with
  | some d => some d
  | none => dims.find? fun i => isPencils worldIn boxesIn i

/-- Step 1b (plan_logic.cpp:187-194). -/
def pencilDir1 (worldIn worldOut : Box) (boxesIn : List Box) (f0 : Option (Fin 3)) : Option (Fin 3) :=
  match f0 with
  | some d0 =>
    if isPencils worldIn boxesIn d0 then
      dims.find? fun i => decide (i ≠ d0) && isPencils worldOut boxesIn i
    else none
  | none => none

/-- Step 2 (plan_logic.cpp:198-203). -/
def pencilDir2 (worldOut : Box) (boxesOut : List Box) (f0 f1 : Option (Fin 3)) : Option (Fin 3) :=
  dims.find? fun i => decide (some i ≠ f0) && decide (some i ≠ f1) && isPencils worldOut boxesOut i

/-- `plan_pencil_reshapes` (plan_logic.cpp:164-254). -/
def planPencil (worldIn worldOut : Box) (boxesIn boxesOut : List Box) (r2c : Option (Fin 3)) (opts : Opts)
    (remap : Remap) : Res Plan := do
  let grid ← makeProcgrid (workRanks boxesIn remap)
  let f0 := pencilDir0 worldIn boxesIn r2c
  let f1 := pencilDir1 worldIn worldOut boxesIn f0
  let f2 := pencilDir2 worldOut boxesOut f0 f1
  let f0 := if f0 = none then getAnyValid ⟨f0, f1, f2⟩ else f0
  let d0 ← req f0
  let shape0 ← nextPencilsShape0 worldIn grid d0 r2c boxesIn opts.useReorder worldOut [0, 1, 2] boxesOut remap
  let shapeFft0 := applyR2c shape0 r2c
  let f1 := if f1 = none then step5 f0 f2 (isPencils worldOut shapeFft0) dims f1 else f1
  let f2 := if f2 = none then getAnyValid ⟨f0, f1, f2⟩ else f2
  let d1 ← req f1
  let d2 ← req f2
  let shape1 ← nextPencilsShape worldOut grid d1 shapeFft0 opts.useReorder worldOut [d1, d2] boxesOut remap
  let shape2 ← nextPencilsShape worldOut grid d2 shape1 opts.useReorder worldOut [d2] boxesOut remap
  .ok ⟨boxesIn, shapeFft0, shape1, shape2, shape0, shape1, shape2, boxesOut, worldIn.size, ⟨d0, d1, d2⟩,
    worldIn.count⟩

/-- `reorder_slabs` (plan_logic.cpp:261-267). -/
def reorderSlabs (slabs : List Box) (dim : Fin 3) (useReorder : Bool) : Res (List Box) :=
  if !useReorder then .ok slabs
  else
    match slabs.head? with
    | none => .error .ub
    | some s => if s.order 0 = dim then .ok slabs else .ok (reorder slabs (newOrder s.order dim))

/-- Search for slab input (plan_logic.cpp:292-310). -/
def slabInput (worldIn : Box) (boxesIn : List Box) (r2c : Option (Fin 3)) : Option (Fin 3 × Fin 3) :=
  match r2c with
  | none => dims.findSome? fun i =>
      (dims.find? fun j => decide (i ≠ j) && isSlab worldIn boxesIn i j).map fun j => (i, j)
  | some r => (dims.find? fun j => decide (j ≠ r) && isSlab worldIn boxesIn r j).map fun j => (r, j)

/-- Search for slab output (plan_logic.cpp:329-337); the outer loop condition looks at `fft_direction[0]`, which is not
changed in the loop, so the last match wins. -/
def slabOutput (worldOut : Box) (boxesOut : List Box) (r2c : Option (Fin 3)) : Option (Fin 3 × Fin 3) :=
  dims.foldl (fun acc i =>
    match dims.find? fun j => decide (i ≠ j) && decide (some i ≠ r2c) && decide (some j ≠ r2c) &&
        isSlab worldOut boxesOut i j with
    | some j => some (i, j)
    | none => acc) none

/-- Search for pencil input (plan_logic.cpp:357-367). -/
def slabPencilInput (worldIn : Box) (boxesIn : List Box) (r2c : Option (Fin 3)) : Option (Fin 3) :=
  match r2c with
  | none => dims.find? fun i => isPencils worldIn boxesIn i
  | some r => if isPencils worldIn boxesIn r then some r else none

/-- The directions of the remaining cases (plan_logic.cpp:389-406). -/
def slabGeneralDirs (worldOut : Box) (boxesOut : List Box) (r2c : Option (Fin 3)) : Dirs :=
  match dims.find? fun i => decide (some i ≠ r2c) && isPencils worldOut boxesOut i with
  | some i =>
    let f0 := if r2c = none then getAnyValid ⟨none, none, some i⟩ else r2c
    ⟨f0, getAnyValid ⟨f0, none, some i⟩, some i⟩
  | none =>
    let f0 := if r2c ≠ none then r2c else some 0
    let f1 := getAnyValid ⟨f0, none, none⟩
    ⟨f0, f1, getAnyValid ⟨f0, f1, none⟩⟩

/-- `plan_slab_reshapes` (plan_logic.cpp:274-422). -/
def planSlab (worldIn worldOut : Box) (boxesIn boxesOut : List Box) (r2c : Option (Fin 3)) (opts : Opts)
    (remap : Remap) : Res Plan :=
  if worldIn.is2d then planPencil worldIn worldOut boxesIn boxesOut r2c opts remap
  else do
    let n := workRanks boxesIn remap
    let grid ← makeProcgrid n
    let finish := fun (d0 d1 d2 : Fin 3) (shape0 shapeFft0 shape1 shape2 : List Box) =>
      (⟨boxesIn, shapeFft0, shape1, shape2, shape0, shape1, shape2, boxesOut, worldIn.size, ⟨d0, d1, d2⟩,
        worldIn.count⟩ : Plan)
    match slabInput worldIn boxesIn r2c with
    | some (d0, d1) =>
      let d2 ← req (getAnyValid ⟨some d0, some d1, none⟩)
      let shape0 ← reorderSlabs boxesIn d0 opts.useReorder
      let shapeFft0 := applyR2c shape0 r2c
      let shape1 ← reorderSlabs shapeFft0 d1 opts.useReorder
      let shape2 ← nextPencilsShape worldOut grid d2 shape1 opts.useReorder worldOut [d2] boxesOut remap
      .ok (finish d0 d1 d2 shape0 shapeFft0 shape1 shape2)
    | none =>
    match slabOutput worldOut boxesOut r2c with
    | some (d1, d2) =>
      let d0 ← req (getAnyValid ⟨none, some d1, some d2⟩)
      let shape0 ← nextPencilsShape worldIn grid d0 boxesIn opts.useReorder worldOut [0, 1, 2] boxesOut remap
      let shapeFft0 := applyR2c shape0 r2c
      let shape1 ← reorderSlabs boxesOut d1 opts.useReorder
      let shape2 ← reorderSlabs shape1 d2 opts.useReorder
      .ok (finish d0 d1 d2 shape0 shapeFft0 shape1 shape2)
    | none =>
    match slabPencilInput worldIn boxesIn r2c with
    | some d0 =>
      let d1 ← req (getAnyValid ⟨some d0, none, none⟩)
      let d2 ← req (getAnyValid ⟨some d0, some d1, none⟩)
      let shape0 ← nextPencilsShape worldIn grid d0 boxesIn opts.useReorder worldOut [0, 1, 2] boxesOut remap
      let shapeFft0 := applyR2c shape0 r2c
      let slabs ← makeSlabs worldOut n d1 d2 shapeFft0 worldOut.order remap
      let shape1 ← reorderSlabs slabs d1 opts.useReorder
      let shape2 ← reorderSlabs slabs d2 opts.useReorder
      .ok (finish d0 d1 d2 shape0 shapeFft0 shape1 shape2)
    | none =>
      let f := slabGeneralDirs worldOut boxesOut r2c
      let d0 ← req f.x
      let d1 ← req f.y
      let d2 ← req f.z
      let slabs ← makeSlabs worldIn n d0 d1 boxesIn worldIn.order remap
      let shape0 ← reorderSlabs slabs d0 opts.useReorder
      let shapeFft0 := applyR2c shape0 r2c
      let shape1 ← reorderSlabs shapeFft0 d1 opts.useReorder
      let shape2 ← nextPencilsShape worldOut grid d2 shape1 opts.useReorder worldOut [d2] boxesOut remap
      .ok (finish d0 d1 d2 shape0 shapeFft0 shape1 shape2)

/-- The remap used by `plan_operations` (plan_logic.cpp:427-431). -/
def planRemap (ranks : Nat) (opts : Opts) : Res Remap :=
  if opts.numSub > 0 ∧ opts.numSub < ranks then Remap.setSubranks ranks opts.numSub.toNat
  else .ok Remap.all

/-- `plan_operations` (plan_logic.cpp:425-453) in a release build (no asserts). -/
def planOperations (boxesIn boxesOut : List Box) (r2c : Option (Fin 3)) (opts : Opts) : Res Plan := do
  let remap ← planRemap boxesIn.length opts
  let worldIn ← findWorld boxesIn
  let worldOut ← findWorld boxesOut
  if opts.usePencils then planPencil worldIn worldOut boxesIn boxesOut r2c opts remap
  else planSlab worldIn worldOut boxesIn boxesOut r2c opts remap

/-- The checks inside of the asserts (plan_logic.cpp:434-446), performed in debug builds: `invalid` is the exception of
`world_complete`, `ub` stands for an abort. -/
def planAsserts (boxesIn boxesOut : List Box) (r2c : Option (Fin 3)) : Res Unit := do
  let worldIn ← findWorld boxesIn
  let worldOut ← findWorld boxesOut
  worldComplete boxesIn worldIn
  worldComplete boxesOut worldOut
  let same := match r2c with
    | none => worldIn.sameBounds worldOut
    | some d => (worldIn.r2c d).sameBounds worldOut
  if same && orderIsIdentical boxesIn && orderIsIdentical boxesOut then .ok () else .error .ub

/-- `compute_grids` (plan_logic.cpp:461-487) for one shape and direction: the number of distinct intervals. -/
def distinctIntervals (shape : List Box) (j : Fin 3) : Nat :=
  (shape.foldl (fun (acc : List (Int × Int)) b =>
    let r := (b.low j, b.high j)
    if r = (0, -1) then acc else if r ∈ acc then acc else acc ++ [r]) []).length

end Verif
