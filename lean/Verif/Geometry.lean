import Verif.Basic

/-!
# Model of `/repo/include/heffte_geometry.h`

Free functions on boxes and processor grids (cited as `geometry.h`).
Simplification: `int`/`index` arithmetic is unbounded, except for the narrowing in
`maximize_overlap` (`PlanInt.lean` repeats the functions with the types of the code).  Processor grids and rank counts are natural numbers (they
come from `std::vector::size()` or `MPI_Comm_size`).
-/

namespace Verif

/-- `rank_remap` (geometry.h:180-205). `map` is empty when all ranks are used;
the entry `-1` is `none`. -/
structure Remap where
  map : List (Option Nat)
  sub : Nat
deriving DecidableEq, Repr

namespace Remap

/-- Default constructed remap (geometry.h:182). -/
def all : Remap := ⟨[], 0⟩

/-- `rank_remap::empty` (geometry.h:204). -/
def isAll (r : Remap) : Bool := r.map.isEmpty

/-- `rank_remap::set_subranks(size_t, int)` (geometry.h:190-194); writing
`map[i]` for `i` beyond the number of ranks is undefined behaviour. -/
def setSubranks (allRanks subRanks : Nat) : Res Remap :=
  if subRanks ≤ allRanks then
    .ok ⟨(List.range allRanks).map fun i => if i < subRanks then some i else none, subRanks⟩
  else .error .ub

end Remap

/-- `find_world` (geometry.h:230-240); `boxes[0]` on an empty vector is undefined. -/
def findWorld (boxes : List Box) : Res Box :=
  match boxes with
  | [] => .error .ub
  | b0 :: _ =>
    let lo := boxes.foldl (fun (l : A3 Int) b => .of fun d => min (l d) (b.low d)) b0.low
    let hi := boxes.foldl (fun (h : A3 Int) b => .of fun d => max (h d) (b.high d)) b0.high
    .ok ⟨lo, hi, defaultOrder⟩

/-- `match` (geometry.h:247-253). -/
def matchShapes (s0 s1 : List Box) : Bool :=
  s0.length == s1.length && (s0.zip s1).all fun p => p.1.sameBounds p.2

/-- The overlap test of `world_complete` (geometry.h:277-280): some pair
`i != j` with a non-empty intersection. -/
def someOverlap (boxes : List Box) : Bool :=
  boxes.zipIdx.any fun bi => boxes.zipIdx.any fun bj =>
    bi.2 != bj.2 && !(bi.1.collide bj.1).empty

/-- `world_complete` (geometry.h:267-283). -/
def worldComplete (boxes : List Box) (world : Box) : Res Unit :=
  let wsize := boxes.foldl (fun s b => s + b.count) 0
  if wsize < world.count then .error .invalid
  else if dims.any fun d => world.low d != 0 then .error .invalid
  else if someOverlap boxes then .error .invalid
  else .ok ()

/-- `get_factors` (geometry.h:302-312). -/
def getFactors (n : Nat) : List (Nat × Nat) :=
  let l := ((List.range' 1 n).filter fun i => n % i == 0).map fun i => (i, n / i)
  if n = 1 then l ++ [(1, 1)] else l

/-- `get_area` (geometry.h:322). -/
def getArea (f : Nat × Nat) : Nat := f.1 * f.2 + f.1 + f.2

/-- `make_procgrid` (geometry.h:337-349); `factors.front()` of an empty list is
undefined (no ranks). -/
def makeProcgrid (n : Nat) : Res (Nat × Nat) :=
  match getFactors n with
  | [] => .error .ub
  | f0 :: fs =>
    .ok ((f0 :: fs).foldl (fun (acc : (Nat × Nat) × Nat) f =>
      if getArea f < acc.2 then (f, getArea f) else acc) (f0, getArea f0)).1

/-- The lambda `make_grid` (geometry.h:364-369). -/
def gridWithout (dir : Fin 3) (g : Nat × Nat) : A3 Nat :=
  match dir with
  | 0 => ⟨1, g.1, g.2⟩
  | 1 => ⟨g.1, 1, g.2⟩
  | 2 => ⟨g.1, g.2, 1⟩

/-- The lambda `valid` (geometry.h:372-376). -/
def gridFits (world : Box) (g : A3 Nat) : Bool := dims.all fun d => !decide ((g d : Int) > world.size d)

/-- `make_procgrid2d` (geometry.h:363-396). -/
def makeProcgrid2d (world : Box) (dir : Fin 3) (cand : Nat × Nat) : Res (A3 Nat) :=
  let result := gridWithout dir cand
  if gridFits world result then .ok result
  else
    match getFactors (cand.1 * cand.2) with
    | [] => .error .ub
    | f0 :: fs =>
      let factors := f0 :: fs
      let maxArea := factors.foldl (fun m g => max m (getArea g)) (getArea f0)
      let r := factors.foldl (fun (acc : A3 Nat × Nat) g =>
        if gridFits world (gridWithout dir g) && decide (getArea g ≤ acc.2) then
          (gridWithout dir g, getArea g) else acc) (result, maxArea)
      if gridFits world r.1 then .ok r.1 else .error .runtime

/-- The lambdas `fast`, `mid`, `slow` of `split_world` (geometry.h:412-414):
first index of the `i`-th part when `n` indexes starting at `low` are cut in `p`
parts. C++ division truncates. -/
def cut (low n : Int) (p : Nat) (i : Nat) : Int :=
  low + (i : Int) * (n.tdiv p) + min (i : Int) (n.tmod p)

/-- The box of grid cell `(i, j, k)` (geometry.h:421). -/
def cellBox (world : Box) (g : A3 Nat) (i j k : Nat) : Box :=
  ⟨⟨cut (world.low 0) (world.size 0) (g 0) i, cut (world.low 1) (world.size 1) (g 1) j,
    cut (world.low 2) (world.size 2) (g 2) k⟩,
   ⟨cut (world.low 0) (world.size 0) (g 0) (i+1) - 1, cut (world.low 1) (world.size 1) (g 1) (j+1) - 1,
    cut (world.low 2) (world.size 2) (g 2) (k+1) - 1⟩, world.order⟩

/-- The grid cells in the order of the loops (geometry.h:418-424). -/
def gridBoxes (world : Box) (g : A3 Nat) : List Box :=
  (List.range (g 2)).flatMap fun k => (List.range (g 1)).flatMap fun j =>
    (List.range (g 0)).map fun i => cellBox world g i j k

/-- `split_world` (geometry.h:410-436). -/
def splitWorld (world : Box) (g : A3 Nat) (remap : Remap) : Res (List Box) :=
  let result := gridBoxes world g
  if remap.isAll then .ok result
  else
    remap.map.mapM fun m =>
      match m with
      | none => .ok ⟨⟨0, 0, 0⟩, ⟨-1, -1, -1⟩, world.order⟩
      | some r =>
        match result[r]? with
        | some b => .ok b
        | none => .error .ub

/-- `is_pencils` (geometry.h:443-448). -/
def isPencils (world : Box) (shape : List Box) (dir : Fin 3) : Bool :=
  shape.all fun s => s.size dir == world.size dir

/-- `is_slab` (geometry.h:455-460). -/
def isSlab (world : Box) (shape : List Box) (d1 d2 : Fin 3) : Bool :=
  shape.all fun s => s.size d1 == world.size d1 && s.size d2 == world.size d2

/-- `reorder` (geometry.h:467-473). -/
def reorder (shape : List Box) (order : A3 (Fin 3)) : List Box :=
  shape.map fun b => ⟨b.low, b.high, order⟩

/-- Conversion `long long` to `int` on assignment (two's complement wrap). -/
def toInt32 (n : Int) : Int := Int.bmod n (2 ^ 32)

/-- One iteration of the inner loop of `maximize_overlap` (geometry.h:511-517). -/
def overlapStep (old : Box) (acc : Int × Option Nat) (e : (Box × Bool) × Nat) : Int × Option Nat :=
  let overlap := toInt32 (old.collide e.1.1).count
  if !e.1.2 && decide (overlap > acc.1) then (overlap, some e.2) else acc

/-- The search for `max_index` (geometry.h:509-517); `none` is the initial value
`new_boxes.size()`. -/
def findBest (old : Box) (new : List Box) (taken : List Bool) : Option Nat :=
  ((new.zip taken).zipIdx.foldl (overlapStep old) (-1, none)).2

/-- Access to `remap.map[i]`: outer `none` is out of bounds. With an empty map the
code never looks (the `not remap.empty()` guards), the answer is then "used". -/
def Remap.unused (r : Remap) (i : Nat) : Option Bool :=
  if r.isAll then some false else (r.map[i]?).map Option.isNone

/-- The outer loop of `maximize_overlap` (geometry.h:502-521) for the positions
`i, i+1, ...`, `fuel` many. The `assert` on `max_index` is absent in release builds;
`taken[max_index]` is then out of bounds. -/
def overlapLoop (new old : List Box) (order : A3 (Fin 3)) (remap : Remap) :
    Nat → Nat → List Bool → Res (List Box)
  | 0, _, _ => .ok []
  | fuel + 1, i, taken =>
    match remap.unused i, new[i]? with
    | some true, some b => do
      let rest ← overlapLoop new old order remap fuel (i+1) taken
      .ok (⟨b.low, b.high, order⟩ :: rest)
    | some false, some _ =>
      match old[i]? with
      | none => .error .ub
      | some o =>
        match findBest o new taken with
        | none => .error .ub
        | some m =>
          match new[m]? with
          | none => .error .ub
          | some b => do
            let rest ← overlapLoop new old order remap fuel (i+1) (taken.set m true)
            .ok (⟨b.low, b.high, order⟩ :: rest)
    | _, _ => .error .ub

/-- The initial `taken` (geometry.h:496-500); marking beyond the vector is undefined. -/
def initTaken (new : List Box) (remap : Remap) : Res (List Bool) :=
  if remap.isAll then .ok (new.map fun _ => false)
  else if (remap.map.drop new.length).any Option.isNone then .error .ub
  else .ok ((List.range new.length).map fun i =>
    match remap.map[i]? with
    | some none => true
    | _ => false)

/-- `maximize_overlap` (geometry.h:490-524). -/
def maximizeOverlap (new old : List Box) (order : A3 (Fin 3)) (remap : Remap) : Res (List Box) := do
  let taken ← initTaken new remap
  overlapLoop new old order remap new.length 0 taken

/-- `count_connections` (geometry.h:536-545). -/
def countConnections (new old : List Box) : Nat :=
  new.foldl (fun c n => old.foldl (fun c o => if !(n.collide o).empty then c + 1 else c) c) 0

/-- `make_pencils` (geometry.h:569-591). -/
def makePencils (world : Box) (grid : Nat × Nat) (dim : Fin 3) (source : List Box)
    (order : A3 (Fin 3)) (remap : Remap) : Res (List Box) :=
  if isPencils world source dim then .ok (reorder source order)
  else do
    let ga ← makeProcgrid2d world dim grid
    let sa ← splitWorld world ga remap
    let pa ← maximizeOverlap sa source order remap
    let gb ← makeProcgrid2d world dim (grid.2, grid.1)
    let sb ← splitWorld world gb remap
    let pb ← maximizeOverlap sb source order remap
    .ok (if countConnections pb source < countConnections pa source then pb else pa)

/-- The grid selected by `make_slabs` (geometry.h:606-626). -/
def slabGrid (n : Nat) (d1 d2 : Fin 3) : A3 Nat :=
  if d1 = 0 then (if d2 = 1 then ⟨1, 1, n⟩ else ⟨1, n, 1⟩)
  else if d1 = 1 then (if d2 = 0 then ⟨1, 1, n⟩ else ⟨n, 1, 1⟩)
  else (if d2 = 0 then ⟨1, n, 1⟩ else ⟨n, 1, 1⟩)

/-- `make_slabs` (geometry.h:600-629). -/
def makeSlabs (world : Box) (n : Nat) (d1 d2 : Fin 3) (source : List Box)
    (order : A3 (Fin 3)) (remap : Remap) : Res (List Box) := do
  let slabs ← splitWorld world (slabGrid n d1 d2) remap
  maximizeOverlap slabs source order remap

/-- The lambda `surface` of `proc_setup_min_surface` (geometry.h:658-662). -/
def gridSurface (world : Box) (g : A3 Nat) : Int :=
  let s : A3 Int := .of fun d => (world.size d).tdiv (g d)
  s 0 * s 1 + s 1 * s 2 + s 2 * s 0

/-- The candidate grids in loop order (geometry.h:666-674). -/
def surfaceCandidates (world : Box) (n : Nat) : List (A3 Nat) :=
  (List.range' 1 (min (n : Int) (world.size 0)).toNat).flatMap fun i =>
    if n % i == 0 then
      let jmax := (min ((n / i : Nat) : Int) (world.size 1)).toNat
      (List.range' 1 jmax).flatMap fun j =>
        if jmax % j == 0 then
          let k := n / (i * j)
          if (k : Int) ≤ world.size 2 && i * j * k == n then [⟨i, j, k⟩] else []
        else []
    else []

/-- `proc_setup_min_surface` (geometry.h:644-691). The first assert (positive count and
ranks) is a precondition. The final `assert` on the product is absent in release builds.
Simplification: `best_surface` starts at infinity instead of the largest `index`. -/
def procSetupMinSurface (world : Box) (n : Nat) : A3 Nat :=
  if n = 1 then ⟨1, 1, 1⟩
  else
    ((surfaceCandidates world n).foldl (fun (acc : A3 Nat × Option Int) g =>
      let s := gridSurface world g
      match acc.2 with
      | none => (g, some s)
      | some b => if s < b then (g, some s) else acc) (⟨1, 1, 1⟩, none)).1

end Verif
