import Verif.Spec
import Verif.SpecPlan
import Verif.Mem

/-!
# Specification vocabulary for data

How the values of a distributed array lie in the memory of the ranks: `order[0]` is the fastest direction.
-/

namespace Verif
variable {α : Type}

/-- The position of the index triple `p` in the local array of a box, row by row in the storage order of the box. -/
def Box.offset (b : Box) (p : A3 Int) : Int :=
  let rel := fun d => p.get d - b.low.get d
  let ext := fun d => b.high.get d - b.low.get d + 1
  (rel b.order.z * ext b.order.y + rel b.order.y) * ext b.order.x + rel b.order.x

/-- The array `mem` has the values `G` of the indexes of the box, in the layout of the box, from address `base`. -/
def Holds (b : Box) (mem : List α) (base : Int) (G : A3 Int → α) : Prop :=
  ∀ p : A3 Int, p ∈ b → rd mem (base + b.offset p) = some (G p)

/-- `nb` arrays in sequence (batch). -/
def HoldsBatch (b : Box) (nb : Nat) (mem : List α) (G : Nat → A3 Int → α) : Prop :=
  ∀ j, j < nb → Holds b mem (j * b.points.card) (G j)

/-- Every rank holds its part of the distributed arrays `G`. -/
def Distributed (boxes : List Box) (nb : Nat) (mems : List (List α)) (G : Nat → A3 Int → α) : Prop :=
  mems.length = boxes.length ∧
    ∀ (r : Nat) b mem, boxes[r]? = some b → mems[r]? = some mem → HoldsBatch b nb mem G

/-- Two distributions of the same indexes over the same ranks: each list of boxes tiles the world and uses one storage
order (documented as a requirement of `make_reshape3d`, reshape3d.h:501-502; ranks without indexes other than rank 0
may deviate). -/
structure Redistribution (bin bout : List Box) (w : Box) : Prop where
  ranks : bin ≠ []
  length : bout.length = bin.length
  tilesIn : Tiles bin w
  tilesOut : Tiles bout w
  orderIn : ∃ o, UsesOrder false bin o
  orderOut : ∃ o, UsesOrder false bout o

/-- The ranks other than `r` that own indexes of the new box of rank `r`. -/
def Senders (bin bout : List Box) (r : Nat) : Finset Nat :=
  (Finset.range bin.length).filter fun q =>
    q ≠ r ∧ ∃ a ∈ bin[q]?, ∃ b ∈ bout[r]?, (a.points ∩ b.points).Nonempty

/-- A possible order of completion of the messages of every rank. -/
def ArrivalOrder (bin bout : List Box) (done : Nat → List Nat) : Prop :=
  ∀ r, r < bin.length → (done r).Perm (List.range (Senders bin bout r).card)

/-- The user arrays before a reshape: one source and one destination per rank, of the sizes of the boxes times the
batch size, the sources with the values `G`. -/
structure Ready (bin bout : List Box) (nb : Nat) (srcs dsts : List (List α)) (G : Nat → A3 Int → α) : Prop where
  sources : srcs.length = bin.length
  destinations : dsts.length = bin.length
  srcSize : ∀ (r : Nat) b src, bin[r]? = some b → srcs[r]? = some src → nb * b.points.card ≤ src.length
  dstSize : ∀ (r : Nat) b dst, bout[r]? = some b → dsts[r]? = some dst → nb * b.points.card ≤ dst.length
  holds : ∀ (r : Nat) b src, bin[r]? = some b → srcs[r]? = some src → HoldsBatch b nb src G

end Verif
