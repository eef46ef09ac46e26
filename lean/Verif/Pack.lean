import Verif.Mem

/-!
# Packing and unpacking of sub-boxes

`/repo/include/heffte_pack3d.h` is cited as `pack3d.h`.  Each function gives the element moves
`(destination address, source address)` of the C++ loops in program order; `data` and `buf` are the positions of the
first argument pointers inside of their arrays.  Only the `tag::cpu` specialisations are modelled.
-/

namespace Verif

/-- `pack_plan_3d` (pack3d.h:30-44). -/
structure PackPlan where
  size : A3 Int
  lineStride : Int
  planeStride : Int
  buffLine : Int
  buffPlane : Int
  map : A3 Int
deriving DecidableEq, Repr

/-- The entries read by `direct_packer::pack` in the order they are read (pack3d.h:94-98): lines of `size[0]` entries
copied by `std::copy_n`. -/
def packSources (p : PackPlan) : List Int :=
  (loop (p.size 2)).flatMap fun slow => (loop (p.size 1)).flatMap fun mid =>
    (loop (p.size 0)).map fun k => slow * p.planeStride + mid * p.lineStride + k

/-- `direct_packer::pack`, also `transpose_packer::pack` (pack3d.h:92-99, 123-125): `buffer_iterator` advances by one
for each entry. -/
def packMoves (p : PackPlan) (data buf : Int) : List (Int × Int) :=
  (packSources p).zipIdx.map fun m => (buf + m.2, data + m.1)

/-- `direct_packer::unpack` (pack3d.h:101-109). -/
def unpackDirect (p : PackPlan) (buf data : Int) : List (Int × Int) :=
  (loop (p.size 2)).flatMap fun slow => (loop (p.size 1)).flatMap fun mid => (loop (p.size 0)).map fun k =>
    (data + (slow * p.planeStride + mid * p.lineStride + k), buf + ((slow * p.size 1 + mid) * p.size 0 + k))

/-- The index of `buffer` in the six branches of `transpose_packer::unpack` (pack3d.h:135-192). -/
def bufIndex (p : PackPlan) (i j k : Int) : Int :=
  if p.map 0 = 0 ∧ p.map 1 = 1 then i * p.buffPlane + j * p.buffLine + k
  else if p.map 0 = 0 ∧ p.map 1 = 2 then j * p.buffPlane + i * p.buffLine + k
  else if p.map 0 = 1 ∧ p.map 1 = 0 then i * p.buffPlane + k * p.buffLine + j
  else if p.map 0 = 1 ∧ p.map 1 = 2 then k * p.buffPlane + i * p.buffLine + j
  else if p.map 0 = 2 ∧ p.map 1 = 0 then j * p.buffPlane + k * p.buffLine + i
  else k * p.buffPlane + j * p.buffLine + i

/-- `transpose_packer::unpack` (pack3d.h:132-194); the first branch has plain loops, the other five are blocked. -/
def unpackTranspose (stride : Nat) (p : PackPlan) (buf data : Int) : List (Int × Int) :=
  let move := fun i j k =>
    (data + (i * p.planeStride + j * p.lineStride + k), buf + bufIndex p i j k)
  if p.map 0 = 0 ∧ p.map 1 = 1 then
    (loop (p.size 2)).flatMap fun i => (loop (p.size 1)).flatMap fun j => (loop (p.size 0)).map fun k => move i j k
  else
    (loopBy stride (p.size 2) 0).flatMap fun bi => (loopBy stride (p.size 1) 0).flatMap fun bj =>
      (loopBy stride (p.size 0) 0).flatMap fun bk =>
        (loopFrom bi (min (bi + stride) (p.size 2))).flatMap fun i =>
          (loopFrom bj (min (bj + stride) (p.size 1))).flatMap fun j =>
            (loopFrom bk (min (bk + stride) (p.size 0))).map fun k => move i j k

end Verif
