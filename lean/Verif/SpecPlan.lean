import Verif.Spec
import Verif.Plan

/-!
# Specification vocabulary for plans

What a valid geometry is and what a plan has to satisfy, in terms of boxes and indexes only.
-/

namespace Verif

/-- The bounds of the complex world given the bounds of the real world: `n/2+1` indexes in the shrunk direction.
`none` stands for a complex-to-complex plan. -/
def ComplexWorld (wi wo : Box) (r2c : Option (Fin 3)) : Prop :=
  ∀ d, wo.low.get d = wi.low.get d ∧
    wo.high.get d = if r2c = some d then wi.low.get d + (wi.high.get d - wi.low.get d + 1) / 2 else wi.high.get d

/-- A valid geometry: both lists have one box per rank and tile their enclosing world, there is at least one index,
the complex world belongs to the real world and all ranks use one storage order per list. -/
structure Geometry (bin bout : List Box) (r2c : Option (Fin 3)) (wi wo : Box) : Prop where
  length : bout.length = bin.length
  worldIn : findWorld bin = .ok wi
  worldOut : findWorld bout = .ok wo
  tilesIn : Tiles bin wi
  tilesOut : Tiles bout wo
  nonempty : ∃ p : A3 Int, p ∈ wi
  complex : ComplexWorld wi wo r2c
  orderIn : ∃ o, IsOrder o ∧ ∀ b ∈ bin, b.order = o
  orderOut : ∃ o, IsOrder o ∧ ∀ b ∈ bout, b.order = o

/-- Two lists with the same bounds, storage order aside. -/
def SameBounds (l m : List Box) : Prop := l.map (fun b => (b.low, b.high)) = m.map (fun b => (b.low, b.high))

/-- Every rank with indexes, and rank 0 in any case, uses the order `o`; with `strict` all the ranks do.  The order of the
other ranks is a permutation. -/
def UsesOrder (strict : Bool) (l : List Box) (o : A3 (Fin 3)) : Prop :=
  IsOrder o ∧ (∀ b ∈ l, strict = true ∨ (∃ p : A3 Int, p ∈ b) → b.order = o) ∧ (∀ b, l.head? = some b → b.order = o) ∧
    ∀ b ∈ l, IsOrder b.order

end Verif
