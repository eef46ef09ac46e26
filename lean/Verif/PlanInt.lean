import Verif.ReshapeInt

/-!
# The planner in machine integers

`Geometry.lean` and `Plan.lean` model the functions on boxes and the planner with unbounded integers.  This file repeats every function of
`/repo/include/heffte_geometry.h` and `/repo/src/heffte_plan_logic.cpp` that computes a number, with the types of the code: the coordinates and
sizes of a box are of type `index` (`int` or `long long`, plan_logic.cpp:456-458), `count()` is of type `long long`, the grids of ranks and the
areas are of type `int`.  A signed overflow is the outcome `ub`.  Each constructor of `box3d` computes the three sizes (geometry.h:71-76), also when
they are not used afterwards.
Simplifications: counters that only run over the ranks or pairs of ranks are not checked, apart from the loop of `get_factors`; the size passed to
`reserve` in `split_world` is the number of ranks.
-/

namespace Verif

/-- Operations on all the elements of a list, from left to right. -/
def listRes {α β : Type} (f : α → Res β) : List α → Res (List β)
  | [] => .ok []
  | a :: l => do
    let b ← f a
    let r ← listRes f l
    .ok (b :: r)

/-- A loop with an accumulator. -/
def foldRes {α β : Type} (f : β → α → Res β) : β → List α → Res β
  | b, [] => .ok b
  | b, a :: l => do
    let b ← f b a
    foldRes f b l

/-- A loop that ends as soon as an element is found. -/
def anyRes {α : Type} (f : α → Res Bool) : List α → Res Bool
  | [] => .ok false
  | a :: l => do
    let b ← f a
    if b then .ok true else anyRes f l

/-- The result of an operation of type `long long`. -/
def llArith (x : Int) : Res Int := IndexType.longLong.arith x

/-! ## Boxes -/

/-- One of the sizes `high[i] - low[i] + 1` (geometry.h:71, 75). -/
def extentM (t : IndexType) (low high : Int) : Res Int := do
  let a ← t.arith (high - low)
  t.arith (a + 1)

/-- The constructor of `box3d` (geometry.h:70-76). -/
def boxM (t : IndexType) (low high : A3 Int) (order : A3 (Fin 3)) : Res Box := do
  let _ ← extentM t low.x high.x
  let _ ← extentM t low.y high.y
  let _ ← extentM t low.z high.z
  .ok ⟨low, high, order⟩

/-- `box3d::count` (geometry.h:87-88). -/
def countM (b : Box) : Res Int :=
  if b.empty then .ok 0
  else do
    let a ← llArith (b.size 0 * b.size 1)
    llArith (a * b.size 2)

/-- `box3d::collide` (geometry.h:90-94). -/
def collideM (t : IndexType) (a b : Box) : Res Box :=
  if a.empty || b.empty then boxM t ⟨0, 0, 0⟩ ⟨-1, -1, -1⟩ defaultOrder
  else boxM t (.of fun d => max (a.low d) (b.low d)) (.of fun d => min (a.high d) (b.high d)) a.order

/-- `box3d::r2c` (geometry.h:96-104). -/
def r2cM (t : IndexType) (b : Box) (dim : Fin 3) : Res Box :=
  if b.empty then boxM t ⟨0, 0, 0⟩ ⟨-1, -1, -1⟩ defaultOrder
  else do
    let h ← t.arith (b.low dim + b.size dim / 2)
    boxM t b.low (b.high.set dim h) b.order

/-- `find_world` (geometry.h:230-240): the loops compare only, the box is constructed at the end. -/
def findWorldM (t : IndexType) (boxes : List Box) : Res Box := do
  let w ← findWorld boxes
  boxM t w.low w.high w.order

/-- The overlap test of `world_complete` (geometry.h:277-280). -/
def someOverlapM (t : IndexType) (boxes : List Box) : Res Bool :=
  anyRes (fun bi => anyRes (fun bj =>
    if bi.2 != bj.2 then do
      let c ← collideM t bi.1 bj.1
      .ok (!c.empty)
    else .ok false) boxes.zipIdx) boxes.zipIdx

/-- `world_complete` (geometry.h:267-283). -/
def worldCompleteM (t : IndexType) (boxes : List Box) (world : Box) : Res Unit := do
  let wsize ← foldRes (fun s b => do
    let c ← countM b
    llArith (s + c)) 0 boxes
  let n ← countM world
  if wsize < n then .error .invalid
  else if dims.any fun d => world.low d != 0 then .error .invalid
  else do
    let o ← someOverlapM t boxes
    if o then .error .invalid else .ok ()

/-! ## Grids of ranks -/

/-- `get_factors` (geometry.h:302-312): the counter of the loop reaches `n + 1`. -/
def getFactorsM (n : Nat) : Res (List (Nat × Nat)) := do
  let _ ← intArith (n + 1)
  .ok (getFactors n)

/-- `get_area` (geometry.h:322). -/
def getAreaM (f : Nat × Nat) : Res Int := do
  let a ← intArith (f.1 * f.2)
  let b ← intArith (a + f.1)
  intArith (b + f.2)

/-- `make_procgrid` (geometry.h:337-349). -/
def makeProcgridM (n : Nat) : Res (Nat × Nat) := do
  let factors ← getFactorsM n
  match factors with
  | [] => .error .ub
  | f0 :: fs => do
    let a0 ← getAreaM f0
    let r ← foldRes (fun (acc : (Nat × Nat) × Int) f => do
      let a ← getAreaM f
      if a < acc.2 then .ok (f, a) else .ok acc) (f0, a0) (f0 :: fs)
    .ok r.1

/-- `make_procgrid2d` (geometry.h:363-396). -/
def makeProcgrid2dM (world : Box) (dir : Fin 3) (cand : Nat × Nat) : Res (A3 Nat) :=
  let result := gridWithout dir cand
  if gridFits world result then .ok result
  else do
    let _ ← intArith (cand.1 * cand.2)
    let factors ← getFactorsM (cand.1 * cand.2)
    match factors with
    | [] => .error .ub
    | f0 :: fs => do
      let a0 ← getAreaM f0
      let maxArea ← foldRes (fun m g => do
        let a ← getAreaM g
        .ok (max m a)) a0 (f0 :: fs)
      let r ← foldRes (fun (acc : A3 Nat × Int) g =>
        if gridFits world (gridWithout dir g) then do
          let a ← getAreaM g
          if a ≤ acc.2 then .ok (gridWithout dir g, a) else .ok acc
        else .ok acc) (result, maxArea) (f0 :: fs)
      if gridFits world r.1 then .ok r.1 else .error .runtime

/-! ## Splitting the world -/

/-- The lambdas `fast`, `mid`, `slow` of `split_world` (geometry.h:412-414); a division by zero is undefined. -/
def cutM (t : IndexType) (low n : Int) (p i : Nat) : Res Int :=
  if p = 0 then .error .ub
  else do
    let q ← t.arith (n.tdiv p)
    let a ← t.arith (i * q)
    let b ← t.arith (low + a)
    t.arith (b + min (i : Int) (n.tmod p))

/-- The last index of a part (geometry.h:421). -/
def cutEndM (t : IndexType) (low n : Int) (p i : Nat) : Res Int := do
  let a ← cutM t low n p (i + 1)
  t.arith (a - 1)

/-- The box of grid cell `(i, j, k)` (geometry.h:421). -/
def cellBoxM (t : IndexType) (world : Box) (g : A3 Nat) (c : Nat × Nat × Nat) : Res Box := do
  let l0 ← cutM t (world.low 0) (world.size 0) (g 0) c.1
  let l1 ← cutM t (world.low 1) (world.size 1) (g 1) c.2.1
  let l2 ← cutM t (world.low 2) (world.size 2) (g 2) c.2.2
  let h0 ← cutEndM t (world.low 0) (world.size 0) (g 0) c.1
  let h1 ← cutEndM t (world.low 1) (world.size 1) (g 1) c.2.1
  let h2 ← cutEndM t (world.low 2) (world.size 2) (g 2) c.2.2
  boxM t ⟨l0, l1, l2⟩ ⟨h0, h1, h2⟩ world.order

/-- The grid cells in the order of the loops (geometry.h:418-420). -/
def gridCells (g : A3 Nat) : List (Nat × Nat × Nat) :=
  (List.range (g 2)).flatMap fun k => (List.range (g 1)).flatMap fun j => (List.range (g 0)).map fun i => (i, j, k)

/-- `split_world` (geometry.h:410-436). -/
def splitWorldM (t : IndexType) (world : Box) (g : A3 Nat) (remap : Remap) : Res (List Box) := do
  let result ← listRes (cellBoxM t world g) (gridCells g)
  if remap.isAll then .ok result
  else
    listRes (fun (m : Option Nat) =>
      match m with
      | none => boxM t ⟨0, 0, 0⟩ ⟨-1, -1, -1⟩ world.order
      | some r =>
        match result[r]? with
        | some b => .ok b
        | none => .error .ub) remap.map

/-- `reorder` (geometry.h:467-473). -/
def reorderM (t : IndexType) (shape : List Box) (order : A3 (Fin 3)) : Res (List Box) :=
  listRes (fun b => boxM t b.low b.high order) shape

/-- One iteration of the inner loop of `maximize_overlap` (geometry.h:511-517). -/
def overlapStepM (t : IndexType) (old : Box) (acc : Int × Option Nat) (e : (Box × Bool) × Nat) : Res (Int × Option Nat) := do
  let c ← collideM t old e.1.1
  let n ← countM c
  if !e.1.2 && decide (toInt32 n > acc.1) then .ok (toInt32 n, some e.2) else .ok acc

/-- The search for `max_index` (geometry.h:509-517). -/
def findBestM (t : IndexType) (old : Box) (new : List Box) (taken : List Bool) : Res (Option Nat) := do
  let r ← foldRes (overlapStepM t old) (-1, none) (new.zip taken).zipIdx
  .ok r.2

/-- The outer loop of `maximize_overlap` (geometry.h:502-521), see `overlapLoop`. -/
def overlapLoopM (t : IndexType) (new old : List Box) (order : A3 (Fin 3)) (remap : Remap) : Nat → Nat → List Bool → Res (List Box)
  | 0, _, _ => .ok []
  | fuel + 1, i, taken =>
    match remap.unused i, new[i]? with
    | some true, some b => do
      let x ← boxM t b.low b.high order
      let rest ← overlapLoopM t new old order remap fuel (i+1) taken
      .ok (x :: rest)
    | some false, some _ =>
      match old[i]? with
      | none => .error .ub
      | some o => do
        let best ← findBestM t o new taken
        match best with
        | none => .error .ub
        | some m =>
          match new[m]? with
          | none => .error .ub
          | some b => do
            let x ← boxM t b.low b.high order
            let rest ← overlapLoopM t new old order remap fuel (i+1) (taken.set m true)
            .ok (x :: rest)
    | _, _ => .error .ub

/-- `maximize_overlap` (geometry.h:490-524). -/
def maximizeOverlapM (t : IndexType) (new old : List Box) (order : A3 (Fin 3)) (remap : Remap) : Res (List Box) := do
  let taken ← initTaken new remap
  overlapLoopM t new old order remap new.length 0 taken

/-- `count_connections` (geometry.h:536-545). -/
def countConnectionsM (t : IndexType) (new old : List Box) : Res Nat :=
  foldRes (fun c n => foldRes (fun c o => do
    let x ← collideM t n o
    if !x.empty then .ok (c + 1) else .ok c) c old) 0 new

/-- `make_pencils` (geometry.h:569-591). -/
def makePencilsM (t : IndexType) (world : Box) (grid : Nat × Nat) (dim : Fin 3) (source : List Box) (order : A3 (Fin 3)) (remap : Remap) :
    Res (List Box) :=
  if isPencils world source dim then reorderM t source order
  else do
    let ga ← makeProcgrid2dM world dim grid
    let sa ← splitWorldM t world ga remap
    let pa ← maximizeOverlapM t sa source order remap
    let gb ← makeProcgrid2dM world dim (grid.2, grid.1)
    let sb ← splitWorldM t world gb remap
    let pb ← maximizeOverlapM t sb source order remap
    let cb ← countConnectionsM t pb source
    let ca ← countConnectionsM t pa source
    .ok (if cb < ca then pb else pa)

/-- `make_slabs` (geometry.h:600-629). -/
def makeSlabsM (t : IndexType) (world : Box) (n : Nat) (d1 d2 : Fin 3) (source : List Box) (order : A3 (Fin 3)) (remap : Remap) :
    Res (List Box) := do
  let slabs ← splitWorldM t world (slabGrid n d1 d2) remap
  maximizeOverlapM t slabs source order remap

/-! ## The grid of minimal surface -/

/-- The lambda `surface` of `proc_setup_min_surface` (geometry.h:658-662), in the type `index`; the sum runs from left to right. -/
def gridSurfaceM (t : IndexType) (world : Box) (g : A3 Nat) : Res Int := do
  let s0 ← t.arith ((world.size 0).tdiv (g 0))
  let s1 ← t.arith ((world.size 1).tdiv (g 1))
  let s2 ← t.arith ((world.size 2).tdiv (g 2))
  let a ← t.arith (s0 * s1)
  let b ← t.arith (s1 * s2)
  let c ← t.arith (s2 * s0)
  let ab ← t.arith (a + b)
  t.arith (ab + c)

/-- `proc_setup_min_surface` (geometry.h:644-691) in a release build: `best_surface` starts with the largest number of the type.  The products of the
loops are divisors of the number of ranks. -/
def procSetupMinSurfaceM (t : IndexType) (world : Box) (n : Nat) : Res (A3 Nat) :=
  if n = 1 then .ok ⟨1, 1, 1⟩
  else do
    let r ← foldRes (fun (acc : A3 Nat × Int) g => do
      let s ← gridSurfaceM t world g
      if s < acc.2 then .ok (g, s) else .ok acc) (⟨1, 1, 1⟩, t.bound - 1) (surfaceCandidates world n)
    .ok r.1

/-! ## The planner -/

/-- `apply_r2c` (plan_logic.cpp:40-45). -/
def applyR2cM (t : IndexType) (shape : List Box) (r2c : Option (Fin 3)) : Res (List Box) :=
  match r2c with
  | none => .ok shape
  | some d => listRes (fun s => r2cM t s d) shape

/-- `next_pencils_shape` (plan_logic.cpp:94-120). -/
def nextPencilsShapeM (t : IndexType) (world : Box) (grid : Nat × Nat) (dim : Fin 3) (source : List Box) (useReorder : Bool)
    (worldOut : Box) (test : List (Fin 3)) (boxesOut : List Box) (remap : Remap) : Res (List Box) :=
  if useReorder then
    if isPencilsAll worldOut boxesOut test then
      match boxesOut.head? with
      | none => .error .ub
      | some b =>
        if b.order 0 = dim then .ok boxesOut
        else reorderM t boxesOut (newOrder b.order dim)
    else
      match source.head? with
      | none => .error .ub
      | some s => makePencilsM t world grid dim source (newOrder s.order dim) remap
  else
    if isPencilsAll worldOut boxesOut test then .ok boxesOut
    else makePencilsM t world grid dim source world.order remap

/-- The output boxes extended to the real world in the r2c direction (plan_logic.cpp:139-149). -/
def nonR2cBoxM (t : IndexType) (world : Box) (d : Fin 3) (b : Box) : Res Box :=
  boxM t (b.low.set d (world.low d)) (b.high.set d (world.high d)) b.order

/-- `next_pencils_shape0` (plan_logic.cpp:127-154). -/
def nextPencilsShape0M (t : IndexType) (world : Box) (grid : Nat × Nat) (dim : Fin 3) (r2c : Option (Fin 3)) (source : List Box)
    (useReorder : Bool) (worldOut : Box) (test : List (Fin 3)) (boxesOut : List Box) (remap : Remap) : Res (List Box) :=
  match r2c with
  | some d =>
    if isPencilsAll worldOut boxesOut test then do
      let l ← listRes (nonR2cBoxM t world d) boxesOut
      nextPencilsShapeM t world grid dim source useReorder world test l remap
    else nextPencilsShapeM t world grid dim source useReorder worldOut test boxesOut remap
  | none => nextPencilsShapeM t world grid dim source useReorder worldOut test boxesOut remap

/-- `plan_pencil_reshapes` (plan_logic.cpp:164-254). -/
def planPencilM (t : IndexType) (worldIn worldOut : Box) (boxesIn boxesOut : List Box) (r2c : Option (Fin 3)) (opts : Opts)
    (remap : Remap) : Res Plan := do
  let grid ← makeProcgridM (workRanks boxesIn remap)
  let f0 := pencilDir0 worldIn boxesIn r2c
  let f1 := pencilDir1 worldIn worldOut boxesIn f0
  let f2 := pencilDir2 worldOut boxesOut f0 f1
  let f0 := if f0 = none then getAnyValid ⟨f0, f1, f2⟩ else f0
  let d0 ← req f0
  let shape0 ← nextPencilsShape0M t worldIn grid d0 r2c boxesIn opts.useReorder worldOut [0, 1, 2] boxesOut remap
  let shapeFft0 ← applyR2cM t shape0 r2c
  let f1 := if f1 = none then step5 f0 f2 (isPencils worldOut shapeFft0) dims f1 else f1
  let f2 := if f2 = none then getAnyValid ⟨f0, f1, f2⟩ else f2
  let d1 ← req f1
  let d2 ← req f2
  let shape1 ← nextPencilsShapeM t worldOut grid d1 shapeFft0 opts.useReorder worldOut [d1, d2] boxesOut remap
  let shape2 ← nextPencilsShapeM t worldOut grid d2 shape1 opts.useReorder worldOut [d2] boxesOut remap
  let count ← countM worldIn
  .ok ⟨boxesIn, shapeFft0, shape1, shape2, shape0, shape1, shape2, boxesOut, worldIn.size, ⟨d0, d1, d2⟩, count⟩

/-- `reorder_slabs` (plan_logic.cpp:261-267). -/
def reorderSlabsM (t : IndexType) (slabs : List Box) (dim : Fin 3) (useReorder : Bool) : Res (List Box) :=
  if !useReorder then .ok slabs
  else
    match slabs.head? with
    | none => .error .ub
    | some s => if s.order 0 = dim then .ok slabs else reorderM t slabs (newOrder s.order dim)

/-- `plan_slab_reshapes` (plan_logic.cpp:274-422). -/
def planSlabM (t : IndexType) (worldIn worldOut : Box) (boxesIn boxesOut : List Box) (r2c : Option (Fin 3)) (opts : Opts)
    (remap : Remap) : Res Plan :=
  if worldIn.is2d then planPencilM t worldIn worldOut boxesIn boxesOut r2c opts remap
  else do
    let n := workRanks boxesIn remap
    let grid ← makeProcgridM n
    let finish := fun (d0 d1 d2 : Fin 3) (shape0 shapeFft0 shape1 shape2 : List Box) => do
      let count ← countM worldIn
      .ok (⟨boxesIn, shapeFft0, shape1, shape2, shape0, shape1, shape2, boxesOut, worldIn.size, ⟨d0, d1, d2⟩, count⟩ : Plan)
    match slabInput worldIn boxesIn r2c with
    | some (d0, d1) =>
      let d2 ← req (getAnyValid ⟨some d0, some d1, none⟩)
      let shape0 ← reorderSlabsM t boxesIn d0 opts.useReorder
      let shapeFft0 ← applyR2cM t shape0 r2c
      let shape1 ← reorderSlabsM t shapeFft0 d1 opts.useReorder
      let shape2 ← nextPencilsShapeM t worldOut grid d2 shape1 opts.useReorder worldOut [d2] boxesOut remap
      finish d0 d1 d2 shape0 shapeFft0 shape1 shape2
    | none =>
    match slabOutput worldOut boxesOut r2c with
    | some (d1, d2) =>
      let d0 ← req (getAnyValid ⟨none, some d1, some d2⟩)
      let shape0 ← nextPencilsShapeM t worldIn grid d0 boxesIn opts.useReorder worldOut [0, 1, 2] boxesOut remap
      let shapeFft0 ← applyR2cM t shape0 r2c
      let shape1 ← reorderSlabsM t boxesOut d1 opts.useReorder
      let shape2 ← reorderSlabsM t shape1 d2 opts.useReorder
      finish d0 d1 d2 shape0 shapeFft0 shape1 shape2
    | none =>
    match slabPencilInput worldIn boxesIn r2c with
    | some d0 =>
      let d1 ← req (getAnyValid ⟨some d0, none, none⟩)
      let d2 ← req (getAnyValid ⟨some d0, some d1, none⟩)
      let shape0 ← nextPencilsShapeM t worldIn grid d0 boxesIn opts.useReorder worldOut [0, 1, 2] boxesOut remap
      let shapeFft0 ← applyR2cM t shape0 r2c
      let slabs ← makeSlabsM t worldOut n d1 d2 shapeFft0 worldOut.order remap
      let shape1 ← reorderSlabsM t slabs d1 opts.useReorder
      let shape2 ← reorderSlabsM t slabs d2 opts.useReorder
      finish d0 d1 d2 shape0 shapeFft0 shape1 shape2
    | none =>
      let f := slabGeneralDirs worldOut boxesOut r2c
      let d0 ← req f.x
      let d1 ← req f.y
      let d2 ← req f.z
      let slabs ← makeSlabsM t worldIn n d0 d1 boxesIn worldIn.order remap
      let shape0 ← reorderSlabsM t slabs d0 opts.useReorder
      let shapeFft0 ← applyR2cM t shape0 r2c
      let shape1 ← reorderSlabsM t shapeFft0 d1 opts.useReorder
      let shape2 ← nextPencilsShapeM t worldOut grid d2 shape1 opts.useReorder worldOut [d2] boxesOut remap
      finish d0 d1 d2 shape0 shapeFft0 shape1 shape2

/-- `plan_operations` (plan_logic.cpp:425-453) in a release build. -/
def planOperationsM (t : IndexType) (boxesIn boxesOut : List Box) (r2c : Option (Fin 3)) (opts : Opts) : Res Plan := do
  let remap ← planRemap boxesIn.length opts
  let worldIn ← findWorldM t boxesIn
  let worldOut ← findWorldM t boxesOut
  if opts.usePencils then planPencilM t worldIn worldOut boxesIn boxesOut r2c opts remap
  else planSlabM t worldIn worldOut boxesIn boxesOut r2c opts remap

/-- The checks inside of the asserts (plan_logic.cpp:434-446). -/
def planAssertsM (t : IndexType) (boxesIn boxesOut : List Box) (r2c : Option (Fin 3)) : Res Unit := do
  let worldIn ← findWorldM t boxesIn
  let worldOut ← findWorldM t boxesOut
  worldCompleteM t boxesIn worldIn
  worldCompleteM t boxesOut worldOut
  let half ← match r2c with
    | none => .ok worldIn
    | some d => r2cM t worldIn d
  if half.sameBounds worldOut && orderIsIdentical boxesIn && orderIsIdentical boxesOut then .ok () else .error .ub

end Verif
